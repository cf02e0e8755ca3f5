{"id": "C01", "title": "In-edges mirror out-edges", "statement": "After any history of adding/removing nodes and edges, the edges a node lists as incoming are exactly (as a multiset) the edges that other live nodes list as outgoing to it, and every listed edge connects two live nodes.", "quantifier": "every finite history of addNode/addEdge/addNewEdge/removeEdge/clearAllEdges/removeNode calls on a graph", "why_tests_cant": "The invariant must survive every interleaving of operations, including parallel edges and self loops; a test only visits a few histories.", "anchors": ["include/netlist/DirectedGraph.hpp: Node::addEdge, addNewEdge, removeEdge, clearAllEdges, removeInEdge", "include/netlist/DirectedGraph.hpp: DirectedGraph::addNode, removeNode, addEdge, removeEdge"]}
{"id": "C02", "title": "Edge lookup and de-duplication agree with a plain scan", "statement": "Adding an edge that already exists returns the existing edge and changes nothing; looking up an edge to a target returns the oldest surviving edge to it, or nothing when there is none, regardless of out-degree (i.e. whether or not the lazily built lookup index is in use).", "quantifier": "every history of edge operations on a node and every target, below and above the index threshold of 16", "why_tests_cant": "The index is only built past a threshold and must stay coherent after removals and parallel edges; a test samples few sizes and orders.", "anchors": ["include/netlist/DirectedGraph.hpp: Node::lookupOutEdge, buildOutEdgeIndex, insertOutEdgeIndex, addEdge, addNewEdge, removeEdge, findEdgeTo"]}
{"id": "C03", "title": "Removing a node removes exactly its incident edges", "statement": "After a node is removed, no remaining node lists an edge from or to it, and every edge between two other nodes is still present.", "quantifier": "every graph state reachable by the API and every node", "why_tests_cant": "Depends on all possible edge multiplicities and self loops.", "anchors": ["include/netlist/DirectedGraph.hpp: DirectedGraph::removeNode, Node::clearAllEdges"]}
{"id": "C04", "title": "Concurrent edge insertion never deadlocks", "statement": "Any number of threads concurrently inserting de-duplicated edges always make progress: some thread can always take a step until all have finished (the developer guide promises this for reciprocal edges).", "quantifier": "all finite sets of concurrent insertions, all thread counts, all schedules", "why_tests_cant": "A deadlock needs one specific schedule among exponentially many.", "anchors": ["include/netlist/DirectedGraph.hpp: Node::addEdge", "docs/developer-guide.dox: Multithreading", "source/PendingRvalueQueue.cpp: resolveParallel"]}
{"id": "C05", "title": "Concurrent de-duplicated insertion is linearizable", "statement": "When several threads insert edges from the same node concurrently, exactly one edge per distinct target results, every caller for that target gets that same edge, and the target records it exactly once.", "quantifier": "all sets of concurrent insertions and all schedules of their critical sections", "why_tests_cant": "Schedules cannot be enumerated by tests.", "anchors": ["include/netlist/DirectedGraph.hpp: Node::addEdge, addNewEdge, tryInsert"]}
{"id": "C06", "title": "A reported path is a genuine simple path", "statement": "If a path query returns a non-empty path, it starts at the requested start, ends at the requested end, each consecutive pair is joined by an enabled edge, and no node occurs twice.", "quantifier": "all graphs and all start/end pairs", "why_tests_cant": "Needs the traversal invariant for every graph shape.", "anchors": ["source/PathFinder.cpp: PathFinder::find, buildPath", "source/DepthFirstSearch.hpp: DepthFirstSearch::run"]}
{"id": "C07", "title": "A path is reported whenever one exists", "statement": "For distinct start and end, the path query returns a non-empty path exactly when the end is reachable from the start over enabled edges; for start = end the documentation's notion of a path (the node itself) should be returned.", "quantifier": "all graphs and all start/end pairs", "why_tests_cant": "Completeness of a search is a statement about all graphs.", "anchors": ["source/PathFinder.cpp: PathFinder::find, buildPath"]}
{"id": "C08", "title": "Combinational path queries", "statement": "The combinational path query returns a non-empty path exactly when the end is reachable from the start through enabled edges none of whose targets is a register, and the returned path has no register after its first node.", "quantifier": "all graphs, node kinds, and start/end pairs", "why_tests_cant": "All graph shapes.", "anchors": ["source/PathFinder.cpp: PathFinder::findComb, CombEdgePredicate"]}
{"id": "C09", "title": "Combinational fan-out is exact", "statement": "The fan-out query returns, without duplicates, exactly the start node and the nodes reachable from it over enabled edges without entering a register.", "quantifier": "all graphs and start nodes", "why_tests_cant": "Exactness in both directions over all graphs.", "anchors": ["source/NetlistGraph.cpp: NetlistGraph::getCombFanOut, collectReachable"]}
{"id": "C10", "title": "Combinational fan-in is exact and dual to fan-out", "statement": "The fan-in query returns, without duplicates, exactly the start node and the nodes from which it is reachable over enabled edges without leaving a register; for non-register nodes m is in fan-out(n) iff n is in fan-in(m).", "quantifier": "all graphs and node pairs", "why_tests_cant": "Relates two traversals over every graph.", "anchors": ["source/NetlistGraph.cpp: NetlistGraph::getCombFanIn, getCombFanOut"]}
{"id": "C11", "title": "Reported combinational loops are genuine", "statement": "Every loop reported is a simple cycle of enabled edges through non-register nodes, starting with its lowest-numbered node.", "quantifier": "all graphs", "why_tests_cant": "Soundness for every graph.", "anchors": ["source/CycleDetector.hpp: CycleDetector::detectCycles, CycleDetectionVisitor", "source/CombLoops.cpp"]}
{"id": "C12", "title": "Combinational loop detection is complete", "statement": "If any combinational cycle exists the report is non-empty, and every node lying on a combinational cycle appears in at least one reported loop; the header promises that all cycles are returned.", "quantifier": "all graphs", "why_tests_cant": "Completeness requires reasoning about every DFS order.", "anchors": ["source/CycleDetector.hpp: CycleDetector::detectCycles"]}
{"id": "C13", "title": "Loop report is canonical", "statement": "The loops reported are pairwise distinct, each is rotated so its lowest ID comes first, and the list is sorted lexicographically by node ID.", "quantifier": "all graphs with distinct node IDs", "why_tests_cant": "Order stability over all graphs.", "anchors": ["source/CycleDetector.hpp: detectCycles"]}
{"id": "C14", "title": "Constant-driver report means tied off", "statement": "If the constant-driver query returns a non-empty list for a node, that list is exactly the constants in its fan-in and no register and no undriven external input reaches the node.", "quantifier": "all graphs and nodes", "why_tests_cant": "Must hold for every fan-in cone.", "anchors": ["source/NetlistGraph.cpp: NetlistGraph::getConstantDrivers", "include/netlist/NetlistGraph.hpp: getConstantDrivers doc"]}
{"id": "C15", "title": "Sensitivity is exact", "statement": "The sensitivity of a register is exactly the de-duplicated set of (source, edge kind) of its clocked in-edges; for another node it is the union over all registers entered by an enabled edge from its combinational fan-out.", "quantifier": "all graphs and nodes", "why_tests_cant": "Union over arbitrary cones.", "anchors": ["source/NetlistGraph.cpp: NetlistGraph::getSensitivity"]}
{"id": "C16", "title": "Name lookups are exact", "statement": "Looking up by exact name returns a node with that path iff one exists; lookup by name and range returns exactly the nodes with that path whose bounds overlap; pattern search returns exactly the named nodes whose path matches. This should hold for the graph as it is at the time of the query.", "quantifier": "all graphs, names, ranges, patterns, and all interleavings of queries with graph edits", "why_tests_cant": "Staleness appears only in particular histories.", "anchors": ["source/NetlistGraph.cpp: buildIndex, lookup, findNodes", "include/netlist/NetlistGraph.hpp"]}
{"id": "C17", "title": "Driver queries are bit-exact", "statement": "The driver query for (name, range) returns exactly the sources of edges annotated with that symbol whose bounds overlap the range; the per-bit query returns exactly those (driver, clipped range) pairs, sorted, with no duplicate, and a bit b lies in a returned entry of driver d iff b is in the queried range and some edge from d carries bit b of the symbol.", "quantifier": "all graphs, names, ranges and bits", "why_tests_cant": "Pointwise statement over every bit and edge.", "anchors": ["source/NetlistGraph.cpp: getDrivers, getBitDrivers", "include/netlist/DriverBitRange.hpp: intersection"]}
{"id": "C18", "title": "Black-box coverage classification", "statement": "A node without a path is outside; a port directly below a recorded box is on the boundary unless some box contains it; any other node at or segment-wise below a box is contained; everything else outside; the answer does not depend on the order boxes were recorded.", "quantifier": "all paths, node kinds, box lists", "why_tests_cant": "String-prefix corner cases for all names.", "anchors": ["source/NetlistGraph.cpp: getBlackBoxCoverage, addBlackBoxPath"]}
{"id": "C19", "title": "Traversal terminates, visiting each reachable node once", "statement": "A depth-first traversal of any finite graph terminates; it visits every node reachable via accepted edges exactly once and finishes each; it examines each accepted out-edge of a visited node once.", "quantifier": "all finite graphs incl. cycles, self loops, parallel edges; all predicates", "why_tests_cant": "Termination and exactly-once for all graphs.", "anchors": ["source/DepthFirstSearch.hpp: DepthFirstSearch"]}
{"id": "C20", "title": "Glob matching follows the documented syntax", "statement": "A path matches a pattern exactly when the pattern's pieces can be matched against consecutive pieces of the path: literals match themselves, ? one non-dot character, * any run of non-dot characters, ** or ... any run including dots, with an adjacent dot optional as documented.", "quantifier": "all patterns and all texts", "why_tests_cant": "Backtracking matcher versus declarative semantics for unbounded strings.", "anchors": ["include/common/Wildcard.hpp: wildcardMatch", "docs/user-guide.dox: glob-syntax"]}
{"id": "C21", "title": "Glob matching is memory safe and terminates", "statement": "Matching never reads beyond the terminating NUL of either string and always terminates.", "quantifier": "all patterns and texts", "why_tests_cant": "Out-of-bounds reads depend on exact string tails.", "anchors": ["include/common/Wildcard.hpp: wildcardMatch"]}
{"id": "C22", "title": "Scope filtering is segment-aware", "statement": "A path passes a scope filter iff it equals the scope or extends it by a dot and more text; combined with name globs a node passes iff it lies in one of the scopes (if any) and matches one of the names (if any).", "quantifier": "all paths, scopes, pattern lists", "why_tests_cant": "All strings.", "anchors": ["include/common/Wildcard.hpp: pathInScope", "tools/driver/driver.cpp: passesFilters"]}
{"id": "C23", "title": "Signal-range arguments round-trip", "statement": "Parsing the text 'path' followed by the textual form of a bit range yields that path and those bounds; text without a well-formed suffix is taken as a bare path; no argument text causes an out-of-range access.", "quantifier": "all paths and all 32-bit ranges", "why_tests_cant": "All integers and strings.", "anchors": ["tools/driver/driver.cpp: parseNameAndRange", "include/netlist/DriverBitRange.hpp: toString"]}
{"id": "C24", "title": "Tables are aligned and lossless", "statement": "In a rendered table every row starts each column at the same offset, every cell text appears untruncated at its column start, and there is one line per row plus the header.", "quantifier": "all headers, rows and cell contents", "why_tests_cant": "All cell lengths.", "anchors": ["include/common/Utilities.hpp: formatTable"]}
{"id": "C25", "title": "DOT export renders exactly the induced subgraph", "statement": "Rendering a node subset prints each selected node once and exactly the enabled edges whose two endpoints are selected; rendering everything prints all enabled edges.", "quantifier": "all graphs and subsets", "why_tests_cant": "All graphs.", "anchors": ["include/netlist/NetlistDot.hpp: render, renderImpl"]}
{"id": "C26", "title": "Bit slices tile the expression", "statement": "Decomposing an integral expression yields slices that are contiguous, non-empty, start at bit 0 and end at the expression's width, and merging/alignment of two equal-width lists yields segments that tile the same width with each segment inside one slice on either side.", "quantifier": "all expression trees (concat, replicate, convert, conditional, leaf) and all widths", "why_tests_cant": "Recursive structure of unbounded depth.", "anchors": ["source/BitSliceList.cpp: buildInto, push*, alignSegments, collectCuts, mergeCuts, findSliceContaining"]}
{"id": "C27", "title": "Bit-aligned assignment is bit-exact", "statement": "For an assignment whose sides are built from statically selected signals, concatenation, replication, conversion and conditionals, bit k of the left side is recorded as depending on exactly the signal bits that the language semantics route to bit k (plus all condition bits).", "quantifier": "all such expression pairs of equal width, all bits", "why_tests_cant": "Bitwise equality for unbounded expressions.", "anchors": ["source/BitSliceList.cpp: buildInto, alignSegments", "source/DataFlowAnalysis.cpp: handle(AssignmentExpression), driveLhsLspSegment, driveRhsLspSegment"]}
{"id": "C28", "title": "Driver map tracks each bit exactly", "statement": "After any sequence of driver recordings for a signal, the drivers reported for a bit are those of the last overwrite covering it plus all later merges covering it.", "quantifier": "all histories of overwrite/merge calls with any ranges", "why_tests_cant": "The bug-prone cases (splitting, handle sharing) need specific histories.", "anchors": ["source/ValueTracker.cpp: addDrivers, getDrivers", "source/DriverMap.hpp", "source/ExternalManager.hpp"]}
{"id": "C29", "title": "Driver lists are never used after being freed", "statement": "No history of driver recordings makes the tracker access a driver list that has been released, and lists of unrelated ranges are never confused.", "quantifier": "all histories", "why_tests_cant": "Use-after-free depends on history.", "anchors": ["source/ValueTracker.cpp: addDrivers", "source/ExternalManager.hpp: allocate, get, erase, valid"]}
{"id": "C30", "title": "Merging drivers is order independent", "statement": "Recording the same set of merges in any order gives the same drivers for every bit, so parallel and sequential builds agree.", "quantifier": "all multisets of merges, all permutations", "why_tests_cant": "All permutations.", "anchors": ["source/ValueTracker.cpp: addDrivers", "source/NetlistBuilder.cpp: mergeDrivers", "source/BuildPipeline.cpp: runPhase2Parallel"]}
{"id": "C31", "title": "Interval difference is set difference", "statement": "The difference of two interval maps covers exactly the points in the first and not in the second.", "quantifier": "all pairs of interval maps", "why_tests_cant": "All overlap patterns.", "anchors": ["source/IntervalMapUtils.hpp: difference, subtractSingle"]}
{"id": "C32", "title": "Every bit read is linked to its definitions", "statement": "When a procedural block reads a range of a signal, for each bit either there is an edge from each node that last wrote that bit in the block, or (if the block has not written it) the bit is queued for resolution against the rest of the design.", "quantifier": "all states of prior writes and all read ranges", "why_tests_cant": "All overlap patterns.", "anchors": ["source/DataFlowAnalysis.cpp: handleRvalue", "source/ValueTracker.cpp"]}
{"id": "C33", "title": "Every non-blocking assignment that can execute drives its register", "statement": "For any procedural block, each non-blocking assignment that is the last one to a bit on some control path is recorded as a driver of that bit.", "quantifier": "all structured procedural blocks", "why_tests_cant": "All control-flow shapes.", "anchors": ["source/DataFlowAnalysis.cpp: addNonBlockingLvalue, processNonBlockingLvalues, finalize, mergeStates"]}
{"id": "C34", "title": "Reaching definitions for blocking assignments", "statement": "For blocks built from blocking assignments, sequencing and if/else, the drivers recorded for a bit at the end of the block are exactly the assignments that are last on some control path that assigns the bit.", "quantifier": "all structured blocks, all bits", "why_tests_cant": "All control-flow shapes.", "anchors": ["source/DataFlowAnalysis.cpp: handleLvalue, mergeStates, joinState, copyState"]}
{"id": "C35", "title": "Adding dependencies never loses annotations", "statement": "After any sequence of annotated dependencies between nodes, the bits recorded on the edges from s to t for a symbol are exactly the union of the ranges requested for (s,t,symbol), in any order.", "quantifier": "all sequences of dependency additions", "why_tests_cant": "Contiguity merging depends on order.", "anchors": ["source/NetlistBuilder.cpp: addDependency", "include/netlist/NetlistEdge.hpp: setVariable"]}
{"id": "C36", "title": "Edge-triggered blocks are sequential", "statement": "A procedural block is treated as sequential exactly when it has edge-triggered events and no level-sensitive event, and its registers are sensitive to exactly those events.", "quantifier": "all event lists", "why_tests_cant": "All event lists.", "anchors": ["source/NetlistBuilder.cpp: collectSensitivity, mergeDrivers, handleProceduralBlock"]}
{"id": "C37", "title": "Cut points accumulate exactly", "statement": "After any sequence of registrations, the cuts known for a symbol are exactly the registered in-range offsets, sorted without duplicates.", "quantifier": "all registration sequences", "why_tests_cant": "All sequences.", "anchors": ["source/CutRegistry.hpp: addCuts, getCuts"]}
{"id": "C38", "title": "Variable nodes are found by their exact range", "statement": "A node registered for (symbol, range) is returned when looking up that range, and nothing is returned for ranges never registered.", "quantifier": "all registration histories and ranges", "why_tests_cant": "All histories.", "anchors": ["source/VariableTracker.hpp: insert, lookup"]}
{"id": "C39", "title": "File and symbol interning is consistent under concurrency", "statement": "Under any interleaving, equal names get equal indices, different names different indices, an index maps back to its name, and earlier indices never change; interning a symbol path returns one stable record.", "quantifier": "all thread sets and schedules", "why_tests_cant": "All schedules.", "anchors": ["include/netlist/TextLocation.hpp: FileTable::addFile, getFilename", "include/netlist/SymbolReference.hpp: SymbolTable::intern"]}
{"id": "C40", "title": "Save then load preserves the netlist", "statement": "Loading a saved netlist yields a graph with the same nodes in order (kind, names, paths, ranges, directions, locations, constants), the same edges (kind, symbol, range, disabled flag), file table and black boxes, up to node renumbering.", "quantifier": "all graphs", "why_tests_cant": "All graphs, incl. parallel edges.", "anchors": ["source/NetlistSerializer.cpp: serialize, deserialize"]}
{"id": "C41", "title": "Loading rejects malformed files", "statement": "Loading fails with an error when the version differs, an edge references an unknown node, or a required field is missing; otherwise each edge of the file connects the nodes carrying the named IDs.", "quantifier": "all JSON values", "why_tests_cant": "All inputs.", "anchors": ["source/NetlistSerializer.cpp: deserialize"]}
{"id": "C42", "title": "Parallel analysis equals sequential analysis", "statement": "For any schedule of the per-block tasks, the pending reads handed to the resolution phase are the same, in the same order, as in sequential mode, and an exception in any task is reported.", "quantifier": "all schedules, all task outcomes", "why_tests_cant": "All schedules.", "anchors": ["source/BuildPipeline.cpp: runPhase2Parallel, runPhase2Sequential, runPhase3", "source/PendingRvalueQueue.cpp: enqueue, drain"]}
{"id": "C43", "title": "Parallel resolution equals sequential resolution", "statement": "Grouping pending reads by target processes every pending read exactly once, no two groups share a target, and the set of connected node pairs equals that of sequential resolution.", "quantifier": "all pending queues, all schedules", "why_tests_cant": "All queues.", "anchors": ["source/PendingRvalueQueue.cpp: resolveSequential, resolveParallel, emitEdgesFor"]}
{"id": "C44", "title": "Pending reads connect to exactly the overlapping drivers", "statement": "Resolving a pending read of a range connects the reader to the variable/register node registered for exactly that range if there is one, otherwise to every driver whose recorded range overlaps it, each edge labelled with the overlap.", "quantifier": "all driver maps and pending reads", "why_tests_cant": "All overlap patterns.", "anchors": ["source/PendingRvalueQueue.cpp: emitEdgesFor", "source/ValueTracker.hpp: forEachDriverInterval"]}
{"id": "C45", "title": "Port nodes tile the driven range at cut points", "statement": "The nodes created for a driven range of a port are contiguous, cover exactly that range, and break exactly at the registered cuts strictly inside it.", "quantifier": "all cut sets and ranges", "why_tests_cant": "All cut sets.", "anchors": ["source/PortConnectionHandler.cpp: materializePortNodes, buildPortSliceList"]}
{"id": "C46", "title": "Handle-based storage behaves like a partial map", "statement": "Allocating returns a handle not currently live, reading a live handle returns what was last stored, freeing affects only that handle, and copies are independent.", "quantifier": "all operation histories", "why_tests_cant": "All histories.", "anchors": ["source/ExternalManager.hpp"]}
{"id": "C47", "title": "Instance redirection is consistent", "statement": "The canonical counterpart reported for a signal does not depend on the order of earlier queries and pairs members positionally.", "quantifier": "all instance forests and query orders", "why_tests_cant": "All query orders.", "anchors": ["source/CanonicalBodyResolver.cpp"]}
{"id": "C48", "title": "Constant slices carry the right value", "statement": "When a constant feeds only part of a target, the value recorded on the constant node equals the corresponding bit slice of the original constant.", "quantifier": "all constants, offsets, widths", "why_tests_cant": "All bit vectors.", "anchors": ["source/NodeFactory.cpp: createConstantForSegment"]}
{"id": "C49", "title": "Names of node kinds, directions and edge kinds round-trip", "statement": "The textual name written for a node kind, port direction or edge kind is read back as the same value, and distinct values have distinct names.", "quantifier": "all enumerators, all strings", "why_tests_cant": "Finite but combined with the file format over all graphs.", "anchors": ["source/NetlistSerializer.cpp"]}
{"id": "C50", "title": "CLI endpoints alias fan queries", "statement": "A lone start behaves as a fan-out request and a lone end as a fan-in request, an explicit fan request takes precedence, and exactly one report is produced, by the documented priority.", "quantifier": "all flag combinations", "why_tests_cant": "Combinatorial.", "anchors": ["tools/driver/driver.cpp"]}
{"id": "C51", "title": "Listing reports contain exactly the requested nodes", "statement": "The fan-out, fan-in, register and search reports list, once each and with path and location, exactly the nodes that belong to the requested set, have a hierarchical path, and pass the scope and name filters; an unknown name is an error.", "quantifier": "all netlists, names, patterns and filter lists", "why_tests_cant": "The set depends on arbitrary graph shapes and filter combinations.", "anchors": ["tools/driver/driver.cpp: main (query part), passesFilters", "source/NetlistGraph.cpp: getCombFanOut, getCombFanIn, findNodes"]}
{"id": "C52", "title": "Path and loop reports describe the path that was found", "statement": "Asked for a path between two known distinct points the tool fails exactly when there is none and otherwise prints, for a simple path of enabled edges, each node and the value carried to the next; every detected loop is printed; the report is always well defined.", "quantifier": "all netlists and endpoint pairs", "why_tests_cant": "Depends on arbitrary graph shapes, parallel edges and port directions.", "anchors": ["tools/driver/driver.cpp: reportPath, reportNodeText, reportEdgeText", "source/PathFinder.cpp: PathFinder::find"]}
{"id": "C53", "title": "Bit-aligned port connections are bit-exact", "statement": "For a port connection whose actual has the port's width and is built from statically selected signals, concatenation, replication, conversion and conditionals, the port nodes associated with bit k of the port are exactly the registered nodes covering bit k, and they are connected to exactly the signal bits that the language routes to bit k of the actual (plus all condition bits).", "quantifier": "all node sets with bounds inside the port, all such actual expressions, all bits", "why_tests_cant": "tests sample a few port shapes; cells of the cut grid and nested actuals are unbounded", "anchors": ["source/PortConnectionHandler.cpp: buildPortSliceList, handlePortConnection, drivePortSegment"]}
{"id": "C54", "title": "Cuts recorded from an actual are its interior slice boundaries", "statement": "The cut positions collected from a port connection's actual expression are exactly the interior boundaries of the actual's own decomposition; the endpoints 0 and width are never recorded.", "quantifier": "all actual expressions and all registry contents", "why_tests_cant": "nested concatenations, replications and inherited hints combine without bound", "anchors": ["source/PortConnectionHandler.cpp: collectActualCuts, recordCutsFromPortConnections"]}
{"id": "C55", "title": "Clocking edge kinds of dependencies are kept", "statement": "After any sequence of dependencies between nodes, every clocking edge kind that was requested from s to t is found on an edge from s to t.", "quantifier": "all graphs and all dependency sequences", "why_tests_cant": "Depends on the order and overlap of requests on one pair of nodes.", "anchors": ["source/NetlistBuilder.cpp: addDependency", "include/netlist/NetlistEdge.hpp: setEdgeKind"]}
{"id": "C56", "title": "A read of a register depends on the register", "statement": "When a procedural block is sequential, a later read of any bits of a signal range it registers gets a dependency on the register holding those bits.", "quantifier": "all designs, blocks, driven ranges and reads", "why_tests_cant": "Reads may cover any part of any registered range; tests read whole registers.", "anchors": ["source/NetlistBuilder.cpp: mergeDrivers", "source/PendingRvalueQueue.cpp: resolve", "source/VariableTracker.hpp: lookup"]}
{"id": "C57", "title": "Values written by an edge-triggered block leave it only through its registers", "statement": "Every edge that merging a sequential block's drivers adds to the graph enters or leaves one of the registers created for the block, so no written value bypasses them.", "quantifier": "all designs, builder states and sequences of driven ranges", "why_tests_cant": "Depends on the kinds of the driven symbols and on which ranges already have nodes.", "anchors": ["source/NetlistBuilder.cpp: mergeDrivers, hookupOutputPort"]}
{"id": "C58", "title": "Output ports are connected to what drives their internal signal", "statement": "When the internal signal of an output port is driven over a range, each driver (or the register, for a sequential block) is connected to the port nodes covering that range.", "quantifier": "all designs, port node partitions and driven ranges", "why_tests_cant": "Port node ranges and driven ranges can overlap in any way.", "anchors": ["source/NetlistBuilder.cpp: hookupOutputPort, mergeDrivers"]}
{"id": "C59", "title": "Writes to interface signals reach the interface variable's node", "statement": "When a block writes an interface variable, directly or through a modport port, each driver of the written range gets an edge to a node registered for every variable range the write refers to that has a node.", "quantifier": "all designs, builder states, sensitivities and driven ranges", "why_tests_cant": "Depends on arbitrary modport resolutions and registered ranges.", "anchors": ["source/NetlistBuilder.cpp: mergeDrivers, resolveInterfaceRef"]}
{"id": "C60", "title": "Conditionals control the assignments in their branches", "statement": "Every node created for an assignment inside a branch of a conditional or case statement has an edge from the node of that statement.", "quantifier": "all structured blocks", "why_tests_cant": "All control-flow shapes.", "anchors": ["source/DataFlowAnalysis.cpp: updateNode, handle(ConditionalStatement), handle(CaseStatement), handle(AssignmentExpression)"]}
{"id": "C61", "title": "Branch ends meet in a merge node", "statement": "Where two branches of a procedural block meet that are both reachable and each end in an assignment, a new merge node has an edge from the last assignment of each branch, and the analysis continues from that node.", "quantifier": "all structured blocks", "why_tests_cant": "All control-flow shapes.", "anchors": ["source/DataFlowAnalysis.cpp: mergeStates, joinState", "source/NetlistBuilder.cpp: merge"]}
{"id": "C62", "title": "Data dependences between blocks are edges of the built graph", "statement": "For every list of deferred blocks, the sequential Phases 2 to 4 finish without a fault, and in the final graph: a read whose bit no path of its own block writes before is entered from every assignment that can leave that bit its value at the end of a combinational block, and from every Phase 1 driver of the bit; a read that follows a write in its own block is entered from each last write on a path; every bit an edge-triggered block can assign is in a register node entered from the assignment and from the drivers of the clock, and reads of the register range are entered from that register. Resolving the reads with several threads gives the same edges.", "quantifier": "all designs, block orders, hash-map orders and resolution schedules", "why_tests_cant": "All combinations of blocks, control paths and ranges.", "anchors": ["source/NetlistBuilder.cpp: handleProceduralBlock, handleContinuousAssign, mergeDrivers", "source/BuildPipeline.cpp: runPhase2Sequential, run, finalize", "source/PendingRvalueQueue.cpp: resolve"]}
{"id": "C63", "title": "Phase 1 meets every instance, port and block once and treats black boxes as opaque", "statement": "For every elaborated design the Phase 1 traversal finishes without a fault; the deferred blocks and black-box paths are exactly those of the instantiated scopes outside black boxes, in order; every node it makes is for a port, an interface variable or a constant actual that was met; every driven bit of every port met, also of black boxes, has a port node, and no port node straddles a cut point that the connections above put in it; the members of a black-boxed instance other than its ports, and of uninstantiated scopes, have no influence on the graph.", "quantifier": "all designs (hierarchies of any depth), options and black-box patterns", "why_tests_cant": "All hierarchies and connection forms.", "anchors": ["source/NetlistBuilder.cpp: handle(PortSymbol), handle(VariableSymbol), handle(InstanceSymbol), handle(GenerateBlockSymbol)", "source/PortConnectionHandler.cpp: materializePortNodes, recordCutsFromPortConnections, handlePortConnection", "source/BuildPipeline.cpp: runPhase1"]}
{"id": "C64", "title": "Dependences through the module hierarchy are paths of the built graph", "statement": "In the graph built for a design, an assignment that can give a bit its value is joined by a path to every read of that bit elsewhere in the hierarchy: up through the output ports of any number of enclosing instances and down through the input ports of any number of instances, the path passing from the assignment (or its register) to the output port nodes, from port node to port node as the connections tie their bits, and into the reading statement.", "quantifier": "all designs, depths and connection forms", "why_tests_cant": "All hierarchies, bit ranges and connection forms.", "anchors": ["source/NetlistBuilder.cpp: handle(InstanceSymbol), hookupOutputPort, addRvalue, mergeDrivers", "source/PortConnectionHandler.cpp: drivePortSegment, handlePortConnection", "source/PendingRvalueQueue.cpp: resolve"]}
{"id": "C65", "title": "The built graph has no edge without a reason in the design", "statement": "Every edge of the netlist built for a design is justified: an edge with a signal leads from something that can give the signal a value (an assignment, port, register, interface variable or connected instance output) to something that depends on it (an assignment, conditional or case that reads it, a port connection that reads it, a register clocked by it, an output port or register of it); an edge without a signal leads from a constant to what it is given to, or follows the control flow of one block. Every edge is enabled, and an edge of a clocking kind leads to a register of a block with an event of that kind on a signal to which the source gives a value. Hence every path is a chain of dependences of the design, an edge into an assignment carries a signal and bits that its statement reads, and an edge out of an assignment a signal that it writes.", "quantifier": "all elaborated designs, hash-map orders, options", "why_tests_cant": "Absence of edges over all designs.", "anchors": ["source/NetlistBuilder.cpp: addDependency, addDriversToNode, mergeDrivers, hookupOutputPort, addRvalue", "source/DataFlowAnalysis.cpp: handleRvalue, updateNode, mergeStates", "source/PortConnectionHandler.cpp: drivePortSegment, handlePortConnection", "source/PendingRvalueQueue.cpp: resolve"]}
{"id": "C66", "title": "Every bit an edge carries has a reason in the design", "statement": "As C65, bit by bit: the bits on an edge between blocks, ports and registers are bits that the source gives a value at the end of its block (by the last write on some control path, or by the last non-blocking assignment), that the port or register holds, and that the target reads; an edge between ports carries a bit only if the connection ties that bit of the port to that bit of the actual.", "quantifier": "all elaborated designs, hash-map orders, options", "why_tests_cant": "Absence of bits on edges over all designs.", "anchors": ["source/DriverMap.hpp", "source/ValueTracker.cpp: addDrivers", "source/NetlistBuilder.cpp: addDependency, mergeDrivers, hookupOutputPort", "source/PortConnectionHandler.cpp: drivePortSegment", "source/PendingRvalueQueue.cpp: resolve"]}
{"id": "C67", "title": "The answers of queries on a built netlist hold in the design", "statement": "On the netlist built for a design: a path that the path query returns is a chain of direct dependences of the design between its end points, and a combinational one enters no register; a loop reported by the combinational loop search is a cycle of such dependences without a register, so a design without a cycle of combinational dependences has no reported loop; what the fan-out and fan-in queries return is connected to the start by such chains; every pair in a sensitivity answer is a node that gives a signal its value and an edge kind for which a block with the register waits on this signal. If the path query returns nothing, the netlist has no path.", "quantifier": "all elaborated designs, hash-map orders, options, query nodes", "why_tests_cant": "Relates query answers to the source design for every design.", "anchors": ["include/netlist/PathFinder.hpp", "include/netlist/CombLoops.hpp", "source/NetlistGraph.cpp: getCombFanOut, getCombFanIn, getSensitivity", "source/BuildPipeline.cpp", "source/NetlistBuilder.cpp"]}
{"id": "C68", "title": "The nodes of the netlist are exactly those of the design", "statement": "The nodes of a built netlist are, in creation order: nodes for ports (with a range inside a driver range of the port), interface variables and constant connections met in the traversal; then, block by block and in the order of the text, exactly one node for each assignment (each segment of an aligned one), conditional, case and constant. Between these there are only registers of the blocks and at most two merge nodes for each choice between two alternatives. So a place with an assignment, conditional or case that occurs once in the design has exactly one node, and no node lacks a reason in the design.", "quantifier": "all elaborated designs, hash-map orders, options", "why_tests_cant": "Exactness of the set of nodes, including absence of extra and duplicate nodes, over all designs.", "anchors": ["source/NodeFactory.cpp", "source/DataFlowAnalysis.cpp: handle assignments, conditionals, mergeStates", "source/NetlistBuilder.cpp: mergeDrivers, createPort, createState", "source/PortConnectionHandler.cpp: materializePortNodes, drivePortSegment"]}
{"id": "C69", "title": "Combinational cycles of the design are reported", "statement": "If the values of assignments and conditions of a design pass on in a circle without a register between them - inside a block, between blocks, from a condition to the first assignment or condition under it, from an assignment to itself, and up and down through ports of the hierarchy - then every assignment, conditional and case on the circle has a node that is in a reported combinational loop.", "quantifier": "all buildable designs, cycles", "why_tests_cant": "Completeness of loop detection over all designs needs the whole pipeline, from traversal to the cycle search, to lose no dependence on any cycle.", "anchors": ["source/BuildPipeline.cpp: run", "source/NetlistBuilder.cpp: mergeDrivers, processPendingRvalues", "source/DataFlowAnalysis.cpp: handleRvalue, updateNode", "include/netlist/CombLoops.hpp: CombLoops"]}
{"id": "C70", "title": "Places in the text only label the nodes", "statement": "Moving assignments, conditionals and cases of a design to other places in the text (file, line, column) changes the places of their nodes and nothing else: nodes, edges, IDs, annotations, faults and the answers of path, fan, constant and loop queries are the same. Hence statements that share a place, like those of several instances of one module, are kept apart: up to places, each has exactly one node and every edge is justified by the very statements it joins.", "quantifier": "all designs, all ways to move places", "why_tests_cant": "A dependence on source locations (for example a map keyed by them) shows only for designs with clashing locations, and independence is a statement about pairs of builds of every design.", "anchors": ["source/DataFlowAnalysis.cpp: handleLvalue, handle(AssignmentExpression)", "source/NodeFactory.cpp: createAssignment, createConditional, createCase", "source/NetlistBuilder.cpp", "source/BuildPipeline.cpp: run"]}
{"id": "C71", "title": "Without a path there is no influence", "statement": "Take any two stable states of a design, i.e. values for all bits that satisfy its assignments, conditions and port connections, whatever functions these compute from what they read. If no combinational loop is reported, then a bit that has different values in the two states is reached by a path without registers from a reader of some source (a register, an input) that differs. In particular, if every query for a combinational path from the changed input ports to an output port answers with the empty path, the output has the same value in both states.", "quantifier": "all designs without latches and with brief branches, all meanings of expressions, all pairs of stable states", "why_tests_cant": "The claim is about every pair of states of every design and every function its expressions may compute; tests compare a few graphs with expectations and never with the values of the design.", "anchors": ["source/DataFlowAnalysis.cpp: handleRvalue, updateNode, mergeStates", "source/NetlistBuilder.cpp: mergeDrivers, processPendingRvalues", "source/PortConnectionHandler.cpp: handlePortConnection", "include/netlist/PathFinder.hpp: findComb", "include/netlist/CombLoops.hpp: CombLoops"]}
{"id": "C72", "title": "Without a path there is no influence, from the text", "statement": "C71 holds for the text of a design: right sides, selects, concatenations, replications, conversions, conditionals and port actuals have the values the language gives them bit by bit (other operators any function of what they read), and the segments, reads and constants that the analysis makes of them lose none of their influence. If no combinational loop is reported and every query for a combinational path from the changed input ports to an output port answers with the empty path, the output has the same value in any two stable states of the text.", "quantifier": "all texts of designs as in C71, all values of other operators, all pairs of stable states", "why_tests_cant": "The claim relates the values of every expression of the language to the graph, for every pair of states; tests compare a few graphs with expectations.", "anchors": ["source/DataFlowAnalysis.cpp: handle(AssignmentExpression), driveLhsLspSegment, driveRhsLspSegment", "source/BitSliceList.cpp: build, buildInto, alignSegments", "include/netlist/PathFinder.hpp: findComb"]}
{"id": "C73", "title": "The analysis can look at every text", "statement": "For every elaborated text, decomposing the sides of its assignments and walking over their segments ends without an assertion, without an impossible source kind and without dereferencing a missing symbol, and the netlist of the text is that of the design the analysis sees.", "quantifier": "all texts of designs", "why_tests_cant": "Absence of undefined behaviour is about every nesting of selects, concatenations and conversions on both sides of every assignment.", "anchors": ["source/DataFlowAnalysis.cpp: handle(AssignmentExpression), driveLhsLspSegment, driveRhsLspSegment", "source/BitSliceList.cpp: build, buildInto, alignSegments", "source/BuildPipeline.cpp: run"]}
{"id": "C74", "title": "An assignment taken as a whole writes its targets and reads the rest", "statement": "When an assignment is not resolved bit by bit, the analysis notes as written exactly the signals (with their selected range) that the left side assigns, and as read exactly those in selectors of the left side and anywhere in the right side; an index on the left is read, never written.", "quantifier": "all assignments, all nestings of selects and concatenations", "why_tests_cant": "The flag that tells writes from reads is saved and restored around every nested selector; a slip shows only for particular nestings.", "anchors": ["source/DataFlowAnalysis.cpp: handleAssignmentLegacy, noteReference", "source/DataFlowAnalysis.hpp: handle (select expressions)"]}
{"id": "C75", "title": "Scope arguments of the report tool select what they name", "statement": "`slang-report --scope` selects exactly the symbols whose hierarchical path matches one of the given patterns, and the symbol each literal path names, every symbol once, in the order of the arguments and of the tree. It reports an error if a literal path does not resolve or a pattern matches nothing, and only then.", "quantifier": "all symbol trees, all lists of scope arguments", "why_tests_cant": "Patterns interact through the set of symbols already seen; tests try one pattern at a time on one design.", "anchors": ["tools/report/report.cpp: hasGlobChar, collectGlobMatches, main"]}
{"id": "C76", "title": "Reports list every requested declaration once", "statement": "A port, variable or driver report lists exactly the declarations of its kind that lie in the requested scopes (or anywhere, without scopes) and whose path passes the name filters, each once.", "quantifier": "all symbol trees, all scopes and name filters", "why_tests_cant": "Missing and repeated rows depend on how scopes lie in each other and which instances share a body.", "anchors": ["tools/report/report.cpp: main", "include/report/ReportVisitorBase.hpp", "include/report/ReportPorts.hpp", "include/report/ReportVariables.hpp", "include/report/ReportDrivers.hpp"]}
{"id": "C77", "title": "Table and JSON reports say the same", "statement": "With the same other options, the table and the JSON form of a report go to the same place and contain the same rows in the same order with the same values in the columns headed by those members; every object states the documented facts of its declaration.", "quantifier": "all symbol trees, all options", "why_tests_cant": "Both forms are written by hand for every report; a slip in one column of one form is visible only for declarations with particular values.", "anchors": ["include/report/ReportVisitorBase.hpp: report", "include/report/ReportPorts.hpp: appendItemRows, emitJsonItem", "include/report/ReportVariables.hpp: appendItemRows, emitJsonItem", "include/report/ReportDrivers.hpp: appendItemRows, emitJsonItem"]}
{"id": "C78", "title": "The report tool makes the report that was asked for", "statement": "The tool accepts exactly one action and makes that report in the requested form for the requested file. No action, several actions, an unknown format or a scope that does not resolve is an error.", "quantifier": "all combinations of options", "why_tests_cant": "The options combine freely; tests cover one combination each.", "anchors": ["tools/report/report.cpp: main", "docs/user-guide.dox: slang-report"]}
{"id": "C79", "title": "References through modports resolve to interface variables", "statement": "Resolving a reference through a modport port ends, and yields exactly the interface variables, with the bounds of the access, at the ends of its chains of modport connections, in order; parameters and other symbols in the connections are ignored.", "quantifier": "all connections of modports, nested to any depth", "why_tests_cant": "Nesting is unbounded and each connection may fan out to several expressions.", "anchors": ["source/NetlistBuilder.cpp: _resolveInterfaceRef, resolveInterfaceRef"]}
{"id": "C80", "title": "Task statistics describe the tasks", "statement": "The recorded statistics of a parallel build are the least, greatest, total, mean and median time of its tasks, do not depend on the order of the tasks, and are consistent with each other: the minimum is at most the mean and median, which are at most the maximum.", "quantifier": "all lists of task times", "why_tests_cant": "Task times differ on every run and cannot be compared with expected values.", "anchors": ["source/BuildPipeline.cpp: recordTaskStats"]}
{"id": "C81", "title": "No path, no influence over time", "statement": "If a bit of a register or output of a design ever differs between two observations with the same clock edges and the same initial registers, then at this time or before a bit that comes from outside has differed, and the netlist has a path, possibly through registers, from a node that reads it to the assignment of the differing bit. Hence an output to which the tool finds no path from any differing input is the same forever.", "quantifier": "all designs, input sequences, initial states, clock edges and times, and all functions that expressions and conditions may compute", "why_tests_cant": "Influence over time needs all input sequences of every design; tests compare paths of single designs.", "anchors": ["source/DataFlowAnalysis.cpp: handleLvalue, finalize", "source/NetlistBuilder.cpp: mergeDrivers", "source/PendingRvalueQueue.cpp: resolve", "include/netlist/PathFinder.hpp: find"]}
{"id": "C82", "title": "A loaded netlist gives the reports of the saved one", "statement": "Saving the netlist built from a design and loading the file succeeds, and every report of the tool on the loaded netlist is the report on the netlist that was saved: the same error, the same text, or a table with the same rows.", "quantifier": "all designs, all reports with all their arguments", "why_tests_cant": "Tests compare a few reports on a few saved designs; the claim is about every combination of design and report.", "anchors": ["source/NetlistSerializer.cpp: serialize, deserialize", "tools/driver/driver.cpp: main", "source/NetlistGraph.cpp", "include/netlist/NetlistDot.hpp"]}
{"id": "C83", "title": "A run of the tool does what its options ask", "statement": "A run that ends with status 0 has emitted exactly the answer its options ask for, in the format and to the file given; a run with any other status has written nothing. Status 2 means that slang rejected its options. Saving a netlist in one run and querying it in a second run gives the status and the answer of a single run on the sources.", "quantifier": "all options, all sources, files and answers of slang", "why_tests_cant": "Tests run the tool with single combinations of options; the claim is about all combinations, all failures and all designs.", "anchors": ["tools/driver/driver.cpp: main, reportPath, reportNodeDiag, reportEdgeDiag", "include/netlist/NetlistDiagnostics.hpp", "source/NetlistSerializer.cpp"]}
{"id": "C84", "title": "The symbol-reference cache changes nothing", "statement": "Whatever builds run on whatever threads, one after the other or at the same time, a request for the reference of a symbol is answered as if there were no cache: by the entry of the symbol's path in the table of the graph being built. Entries of earlier builds, whose symbols may have had the same address, are never used. The location recorded for a symbol is printed as its file, line and column.", "quantifier": "all interleavings of all threads, all sequences of builds, all reuses of addresses", "why_tests_cant": "Stale entries depend on address reuse and scheduling, which tests do not control.", "anchors": ["source/NetlistBuilder.cpp: toSymbolRef, clearThreadLocalSymbolRefCache, toTextLocation", "source/BuildPipeline.cpp: runPhase1, runPhase2Sequential, runPhase2Parallel", "source/PendingRvalueQueue.cpp: resolveParallel"]}
{"id": "C85", "title": "Python programs use the netlist safely and get the library's answers", "statement": "No sequence of calls a Python program makes through the bindings is undefined: handles of nodes stay usable as long as they are held. A query gives handles for exactly the nodes the library gives, in the same order; iterating over a graph gives each node once, in order; a path object answers as the list of its nodes; two live handles of the same node are the same object.", "quantifier": "all Python programs (sequences of calls, with references given up at any point), all netlists", "why_tests_cant": "Tests keep the graph in a variable; the claim is about all orders of making and giving up references, where a failure is a use of freed memory that often goes unnoticed.", "anchors": ["bindings/python/pyslang_netlist.cpp", "include/netlist/NetlistPath.hpp", "source/NetlistGraph.cpp"]}
{"id": "C86", "title": "The driver, constant, sensitivity and DOT reports say exactly what was asked", "statement": "The driver report of a name has one row for each driving node and range of driven bits, cut to the bits asked for, in ascending order, with the driver's kind, path and location; the constant report lists exactly the constants a node is tied to; the sensitivity report lists exactly the clocks and edges of the matching nodes that pass the filters; the DOT report draws exactly the requested cone, path or netlist. Unknown names are errors. The words describing a driver identify its kind and path.", "quantifier": "all netlists, names, bit ranges, patterns and filters", "why_tests_cant": "Tests compare a few fixed outputs of small designs; an omitted, repeated or mislabelled row in other designs goes unnoticed.", "anchors": ["tools/driver/driver.cpp: main, describeDriver", "source/NetlistGraph.cpp: getBitDrivers", "source/NetlistGraph.cpp: getSensitivity, getConstantDrivers", "include/netlist/NetlistDot.hpp"]}
{"id": "C87", "title": "Parallel blocks keep every definition that may reach their end", "statement": "After a parallel block (fork ... join), whatever the order in which the writes of its branches happen, the blocking assignment that wrote a bit last is recorded as a driver of the bit; and every read in a branch is linked to the definitions that may reach it. The end of the block is reachable if and only if the statement before it and every branch can complete.", "quantifier": "all statements before the block, numbers of branches, branches and interleavings of their writes", "why_tests_cant": "The project's tests contain no parallel block, and the number of interleavings grows exponentially with the length of the branches.", "anchors": ["source/DataFlowAnalysis.cpp: meetState, topState, mergeStates"]}
{"id": "C88", "title": "Assignments in loops are tracked", "statement": "After a loop in a procedural block, the blocking assignment that wrote a bit last, in any run of the block, is recorded as a driver of the bit, and nothing else is; a read in one iteration is linked to the assignments of earlier iterations whose value it may see. Non-blocking assignments in a loop are recorded.", "quantifier": "all statements before and after the loop, numbers of iterations, iterations and runs of them", "why_tests_cant": "The project has four tests with loops of at most four iterations, one of which only records that a while loop is not tracked.", "anchors": ["README.md: unrolling of static loops", "tests/unit/LoopTests.cpp", "source/DataFlowAnalysis.cpp: joinState, unreachableState, mergeStates"]}
{"id": "C89", "title": "The AST is visited before it is frozen", "statement": "Before the compilation is frozen, the visitor enters the whole AST of the design: every element is visited once, values are counted, and everything that the multithreaded analysis of the deferred blocks looks at has been visited, so that no lazily constructed part of the AST is made while several threads run.", "quantifier": "for all ASTs, all deferred blocks and all elements their analysis looks at", "why_tests_cant": "A part that was not visited shows up only as a data race between threads, and only for designs with the particular construct; a test runs one design under one schedule.", "anchors": ["include/netlist/VisitAll.hpp:13-44", "source/NetlistBuilder.cpp:478-562", "bindings/python/pyslang_netlist.cpp:56-71", "tools/driver/driver.cpp:725-730"]}
{"id": "C90", "title": "No path, no influence on when registers load", "statement": "The statement of C81 also holds when the two observations differ in when blocks fire: if whether a block fires depends only on the values that the signals in its event list have had until then, where these signals may be inputs, assigned, or registers of the design, then a bit of a register or output that ever differs is reached in the netlist from a differing bit that comes from outside, possibly over the edge from a clock into a register. Hence an output to which the tool finds no path from any differing input, clocks included, is the same forever.", "quantifier": "all designs, input sequences, initial states and times, all functions that expressions and conditions may compute, and all ways in which firing may depend on the history of the event signals", "why_tests_cant": "Derived and gated clocks combine with every way of computing the clock; tests look at the edge from one clock into one register.", "anchors": ["source/NetlistBuilder.cpp: mergeDrivers", "source/PendingRvalueQueue.cpp: resolve", "source/NetlistBuilder.cpp: collectSensitivity", "include/netlist/PathFinder.hpp: find"]}
{"id": "C91", "title": "No path, no influence over time, from the text", "statement": "The statement of C90 holds for the text of a design: when every block that is not edge-triggered is stable and every edge-triggered block that fires gives the bits on the left of its non-blocking assignments the values of the right sides, computed bit by bit as the expressions prescribe from the values before, then a bit of a register or output that ever differs between two observations is reached in the netlist that the tool builds from the text, from a bit that differs and comes from outside. Hence an output to which the tool finds no path from any differing input, clocks included, is the same forever.", "quantifier": "all texts of designs, input sequences, initial states and times, all functions that operators and conditions may compute, and all ways in which firing may depend on the history of the event signals", "why_tests_cant": "The slicing of both sides of assignments, the registers behind them and the clocks in front of them would have to be combined in every way, over sequences of any length.", "anchors": ["source/DataFlowAnalysis.cpp: DataFlowAnalysis::handle (AssignmentExpression)", "source/NetlistBuilder.cpp: mergeDrivers", "source/PendingRvalueQueue.cpp: resolve", "include/netlist/PathFinder.hpp: find"]}
{"id": "C92", "title": "The exit status of the reporting tool says whether the report was made", "statement": "A run of slang-report ends with status 0 exactly if its command line is accepted and it asks for help, for the version, or for a report that can be made: slang accepts options, sources and design, for reports on variables and drivers also the analysis, the scopes resolve, the format is known, an action is given, and the output file can be written. It has then written exactly what was asked for. With any other status it has written nothing, and the status is 2 exactly if slang rejects its options.", "quantifier": "all options, all designs, all ways in which slang or the file system can refuse", "why_tests_cant": "The combinations of options with failures at each stage are unbounded and most failures are hard to provoke.", "anchors": ["tools/report/report.cpp: main"]}
{"id": "C93", "title": "The analysis of a block is fixed by the block", "statement": "For every deferred block there is one list of operations (make a node, add an edge between own nodes, queue a read, look up variable nodes, merge a driver, make a register) such that, whatever the builder holds when the block's turn comes, analysing the block and merging its drivers does exactly these operations in this order, and fails exactly where and how the list fails. So what a block contributes can depend on other blocks only through the lookups of variable nodes and the merging of drivers; through these it does depend on their order.", "quantifier": "all designs, all blocks, all states of the builder, all orders of the hash map of signals", "why_tests_cant": "Blocks and the states in which they are analysed are unbounded; a test sees a block in one state.", "anchors": ["source/NetlistBuilder.cpp: handleProceduralBlock, handleContinuousAssign, mergeDrivers", "source/DataFlowAnalysis.cpp", "source/BuildPipeline.cpp: runPhase2Sequential"]}
{"id": "C94", "title": "Analysing the blocks in parallel tasks gives the same netlist", "statement": "Let the operations of the deferred blocks meet in nothing whose order matters: no bit is driven by two recordings, no two blocks make a register of the same range, and no block makes a register of a range, port or interface variable that another one's drivers connect to. Then, in whatever order the parallel tasks of Phase 2 do their operations, as long as each task does its own in order, the tasks succeed exactly if the blocks one after the other do, and when the buffers of the tasks are drained the netlist is that of the sequential build up to the identity of the new nodes: the same nodes with the same data, the same edges with the same annotations in the same order, before and after the pending reads are resolved one by one; if these are resolved by threads as well, the same nodes are joined. The same holds for the sequential build with the blocks in any other order.", "quantifier": "all designs, all lists of blocks, all builders at the end of Phase 1, all interleavings of the operations of the tasks", "why_tests_cant": "The number of interleavings grows exponentially with the length of the blocks; a test sees those that the scheduler happens to choose.", "anchors": ["source/BuildPipeline.cpp: runPhase2Parallel, runPhase2Sequential", "source/PendingRvalueQueue.cpp: enqueue, drain", "source/NetlistBuilder.cpp: mergeDrivers, addDriversToNode", "source/VariableTracker.hpp: insert, lookup"]}
{"id": "C95", "title": "Recording drivers from several threads is like recording them one at a time", "statement": "Let any number of threads call addDrivers on one tracker, with its steps interleaved in any way that the locks allow. Then the tracker reports for every signal the intervals and drivers that the same calls made one at a time report, in an order that keeps the order of each thread. A call faults only if it does so in that order: no thread uses a slot beyond the end of the vectors or a reference to a driver map that was moved. No two signals get the same slot, each signal gets one, and the reverse mapping agrees. No schedule blocks for ever, also if a thread waiting for the exclusive lock keeps new readers out, and no call takes more than seventeen steps.", "quantifier": "all trackers not in use, all numbers of threads, all lists of recordings per thread, all schedules", "why_tests_cant": "The races need a thread to be stopped between the lookup of a slot and its use, or between the release of the shared and the taking of the exclusive lock; a test meets them rarely and cannot repeat them, and the number of schedules is exponential.", "anchors": ["source/ValueTracker.cpp: addDrivers", "source/ValueTracker.hpp: ValueTracker", "source/BuildPipeline.cpp: runPhase2Parallel"]}
{"id": "C96", "title": "The parallel Phase 2 cannot deadlock", "statement": "Let the tasks of the parallel Phase 2, one per deferred block, take their steps in any order: creating a node, looking up or registering a variable node, taking or releasing the mutex of a node, changing its edge lists, writing the annotations of an edge. As long as a task has something left to do, some task can take a step; the number of steps is bounded by the operations of the blocks; and every state that is reached can be continued to the end of all tasks. The mutual wait of C04 (two threads adding edges between two nodes in opposite directions) cannot occur there, since every edge a task adds has a node at one end that no other task can find, or goes from its own register to a node of Phase 1.", "quantifier": "all states at the end of Phase 1, all numbers of blocks with aligned writes, all schedules of small steps", "why_tests_cant": "A deadlock needs two tasks to be stopped between the two mutexes of addEdge at once; the number of schedules is exponential and a run cannot be repeated.", "anchors": ["source/BuildPipeline.cpp: runPhase2Parallel", "source/NetlistBuilder.cpp: addDependency, hookupOutputPort, mergeDrivers", "include/netlist/DirectedGraph.hpp: addEdge, addNewEdge"]}
{"id": "C97", "title": "In the parallel Phase 2 all edges between two nodes are the business of one task", "statement": "The annotations of an edge (setVariable, setEdgeKind) are written outside all mutexes. In the parallel Phase 2 this is no race: if at some time a task is inside addDependency for two nodes, and at that or any later time a task is inside addDependency for the same two nodes in the same direction, then it is the same task.", "quantifier": "all states at the end of Phase 1, all numbers of blocks with aligned writes, all schedules of small steps, all pairs of nodes", "why_tests_cant": "A data race on two annotations need not change the result of a run; sanitizers see only the schedules that happen.", "anchors": ["source/NetlistBuilder.cpp: addDependency", "include/netlist/NetlistEdge.hpp: setVariable, setEdgeKind", "source/BuildPipeline.cpp: runPhase2Parallel"]}
{"id": "C98", "title": "The parallel Phase 2 in small steps gives the netlist of the sequential build", "statement": "Let the tasks of the parallel Phase 2 take their steps in any order: creating a node, looking up or registering a variable node, taking or releasing the mutex of a node, the test for an existing edge, appending to an edge list, writing the annotations of an edge. If no bit of the design is written in two blocks, nor in a block and through a port, then when all tasks have come to the end the graph has the nodes of the sequential build up to the names of the new ones, and between any two nodes the same annotated edges in the same order, in the out list of the one and the in list of the other; so has the netlist after Phase 4, and resolving the pending reads in parallel joins the same nodes. No task fails if the sequential build succeeds, and some task fails if it fails.", "quantifier": "all elaborated designs with one writer per bit and aligned writes, all schedules of small steps", "why_tests_cant": "The steps of the tasks can be interleaved in exponentially many ways, most of which a run on one machine never shows.", "anchors": ["source/BuildPipeline.cpp: runPhase2Parallel", "source/NetlistBuilder.cpp: addDependency, mergeDrivers, hookupOutputPort", "include/netlist/DirectedGraph.hpp: addEdge, addNewEdge", "source/PendingRvalueQueue.cpp: resolve"]}
{"id": "C99", "title": "A value that passes through an interface is followed by the netlist", "statement": "In the netlist of a design, every driven range of an interface variable that no edge-triggered block writes has a variable node. The node is entered from every assignment that can leave a value in the variable or in a modport port standing for the range, and an edge leads from it to the node of every read, through a modport port or of the variable itself, that can take its value from the range; so a path leads from the assignment on one side of an interface to the read on the other.", "quantifier": "all elaborated designs with interfaces, all deferred blocks, all paths through their statements", "why_tests_cant": "The five tests of interfaces fix the modports, the ranges and the order of the members; the claim is about all of them.", "anchors": ["source/NetlistBuilder.cpp: handle(VariableSymbol), addRvalue, mergeDrivers, resolveInterfaceRef", "source/VariableTracker.hpp: lookup", "source/PendingRvalueQueue.cpp: resolve"]}
{"id": "C100", "title": "No path, no influence, through interfaces", "statement": "The statement of C71 also holds for designs in which values pass through interfaces: if two stable states of a design, in which modport ports have the values of the interface variables they stand for, differ in a bit that a block assigns, they differ in a bit that comes from outside, and a path without registers leads from a node that reads it to an assignment that can leave the bit its value. Hence an output to which the tool finds no combinational path from any differing input is the same in both states, and a combinational cycle that passes through an interface is reported as a loop.", "quantifier": "all elaborated regular designs with interfaces, all meanings of their assignments and conditions, all pairs of stable states", "why_tests_cant": "The claim is about all values and all designs; the tests of interfaces check single paths.", "anchors": ["source/NetlistBuilder.cpp: handle(VariableSymbol), addRvalue, mergeDrivers, resolveInterfaceRef", "source/CombLoops.cpp", "include/netlist/PathFinder.hpp"]}
{"id": "C101", "title": "Ports connected to interface signals take part in the interface", "statement": "In the netlist of a design, an input port of an instance that is connected to an interface variable, or to a modport port that stands for a range of it, is entered from the node of that range. An output port connected to an interface signal enters the node of the range it drives, so that whatever reads the variable on another side of the interface depends on the port.", "quantifier": "all elaborated designs, all connections of ports to interface signals, all bits of the ports", "why_tests_cant": "No test connects a port of a module to a member of an interface; the claim is about all connections and all orders of the members of a design.", "anchors": ["source/PortConnectionHandler.cpp: handlePortConnection, handlePortConnectionLegacy, drivePortSegment", "source/NetlistBuilder.cpp: addRvalue, mergeDrivers, hookupOutputPort", "source/NetlistBuilder.cpp: handle(VariableSymbol)"]}
{"id": "C102", "title": "No path, no influence over time, through interfaces", "statement": "The statement of C81 also holds for designs in which values pass through interfaces, written and read through modport ports by combinational and by edge-triggered blocks: if two observations of a design, with the same clock edges and the same register contents at the beginning, ever differ in a bit that a block gives its value, then at this time or before they differ in a bit that comes from outside, and a path of the netlist leads from a node that reads it to an assignment that can leave the bit its value. Hence an output to which the tool finds no path from any differing input is the same forever.", "quantifier": "all elaborated regular designs with interfaces and registers, all meanings of their assignments and conditions, all pairs of observations, all times", "why_tests_cant": "The claim is about values over unbounded time and all designs; the tests of interfaces check single paths, and none has a register on an interface.", "anchors": ["source/NetlistBuilder.cpp: handle(VariableSymbol), addRvalue, mergeDrivers, resolveInterfaceRef", "source/PendingRvalueQueue.cpp: resolve", "source/DataFlowAnalysis.cpp: finalize", "include/netlist/PathFinder.hpp"]}
{"id": "C103", "title": "Netlists of one process do not disturb each other's node IDs", "statement": "In a process that builds and loads several netlists, on one thread or several, the nodes of each netlist have distinct IDs, so that merging two nodes, saving a netlist and naming a loop, which compare IDs, mean nodes.", "quantifier": "all histories of calls by any number of threads on any number of netlists", "why_tests_cant": "The counter of IDs is shared by the whole process and reset by every builder; tests build one netlist at a time.", "anchors": ["include/netlist/NetlistNode.hpp: NetlistNode, nextID", "source/NetlistBuilder.cpp: NetlistBuilder, merge", "source/NetlistGraph.cpp: build"]}
{"id": "C104", "title": "No path, no influence through interfaces, from the text", "statement": "The statements of C100 and C102 hold for the text of a design: when assignments have the values of their right sides, computed bit by bit as the expressions prescribe, edge-triggered blocks schedule the values of theirs, and modport ports have the values of what they stand for, then a bit that differs between two stable states, or at some time between two observations with the same clock edges, is reached in the netlist that the tool builds from the text, from a bit that differs and comes from outside, through interfaces and, over time, registers. Hence an output to which the tool finds no path from any differing input is the same.", "quantifier": "all texts of regular designs with interfaces and registers, all functions that operators and conditions may compute, all pairs of stable states, all pairs of observations, all times", "why_tests_cant": "The slicing of assignments would have to be combined with all uses of modports on both sides, all values and, over time, sequences of any length; the tests check single paths of fixed designs.", "anchors": ["source/DataFlowAnalysis.cpp: DataFlowAnalysis::handle (AssignmentExpression)", "source/NetlistBuilder.cpp: handle(VariableSymbol), addRvalue, mergeDrivers, resolveInterfaceRef", "source/PendingRvalueQueue.cpp: resolve", "include/netlist/PathFinder.hpp: find"]}
{"id": "C105", "title": "No path, no influence through clocks and interfaces", "statement": "A design with interfaces is observed twice, where edge-triggered blocks fire depending, in any way, on the values that the signals in their event lists have had until then; only blocks that write a register on an interface fire at the same times in both. If a bit that a block gives its value ever differs, then at this time or before, a bit that comes from outside has differed, and a path of the netlist leads from a node that reads it, or a register that waits for it, to the node of the register of the bit or of an assignment that can leave it its value. Hence if the tool answers every query for a path from an input that differs, a clock included, to an output with the empty path, the output is always the same.", "quantifier": "all regular designs with interfaces whose clocks do not come over an interface, all functions that assignments, conditions and event lists may compute, all pairs of observations, all times", "why_tests_cant": "Designs with computed clocks and interfaces would have to be simulated for all pairs of input sequences of any length and compared with all path queries; the tests check single paths of fixed designs.", "anchors": ["source/NetlistBuilder.cpp: handle(VariableSymbol), addRvalue, mergeDrivers, resolveInterfaceRef", "source/PendingRvalueQueue.cpp: resolve", "source/DataFlowAnalysis.cpp: timing controls", "include/netlist/PathFinder.hpp: find"]}
{"id": "C106", "title": "Early exits", "statement": "In a procedural block with `break`, `continue` and `return`, the drivers recorded for a bit that only blocking assignments write are the assignments that wrote it last on some path to the end of the block, paths that leave a loop or a subroutine early included; what comes after an unconditional jump contributes nothing. The end of the block, and the place a jump leads to, count as reachable exactly if some path leads there. A read depends on the assignments that wrote it last on some path that arrives there, and what follows a conditional exit depends on its condition.", "quantifier": "all statements with jumps, nested to any depth, all loops with any number of iterations", "why_tests_cant": "No test of the project contains a jump, and the paths through nested loops with early exits grow exponentially with the number of iterations.", "anchors": ["source/DataFlowAnalysis.cpp: joinState, copyState, unreachableState, finalize", "source/NetlistBuilder.cpp: handle(ProceduralBlockSymbol)"]}
{"id": "C107", "title": "A loaded netlist is what the file says", "statement": "After loading a file, node i is the one that entry i of the node table describes: kind, name, path, location, direction, range, width and value. Two nodes are joined by at most one edge, and its kind, range, symbol and disabled flag are those of the last edge entry that names their IDs; the record of a symbol is that of the first entry with its path.", "quantifier": "all JSON values that load", "why_tests_cant": "All files, including those no tool has written: other members, other orders of members and entries, numbers out of range, unknown kinds and repeated entries.", "anchors": ["source/NetlistSerializer.cpp: deserialize", "include/netlist/SymbolReference.hpp: intern"]}
{"id": "C108", "title": "Assignments inside expressions", "statement": "When an expression contains assignments (parenthesised ones, or arguments for output formals), every written bit is recorded for the assignment it belongs to, blocking or non-blocking as that assignment is, and every signal an assignment reads, before or after an inner assignment, is connected to its own node, as is the value of the inner assignment. What a condition guards depends on it also if it contains an assignment.", "quantifier": "all blocks, all expressions with assignments nested to any depth", "why_tests_cant": "No test of the project has an assignment inside another one. The handler changes members of the analysis that are read again after it returns; whether this is harmless is a question about all orders of visits.", "anchors": ["source/DataFlowAnalysis.cpp: handle(AssignmentExpression), handleAssignmentLegacy, updateNode"]}
{"id": "C109", "title": "A force statement drives nothing", "statement": "A `force` statement is not a driver of its target: with it a procedural block records the same drivers for every bit as without it. The statement does not read its target, and it does not change which conditions the other assignments of the block depend on.", "quantifier": "all blocks, any number of force statements anywhere in them, either handling of assignments", "why_tests_cant": "The one test with a `force` only checks that there are nodes. The statement is handled by the code of ordinary assignments with a member set meanwhile, so its effect depends on what comes before and after.", "anchors": ["source/DataFlowAnalysis.cpp: handle(ProceduralAssignStatement), handleAssignmentLegacy, handle(AssignmentExpression), updateNode"]}
{"id": "C110", "title": "The options for bits change no drivers", "statement": "Whether assignments are resolved bit by bit, and whether cuts are propagated, changes how many nodes an assignment has and what its parts depend on, but not what drives a bit: for every block and every bit, the assignments recorded as its drivers are the same under all settings.", "quantifier": "all blocks, all settings of the options, all cut registries", "why_tests_cant": "Tests compare single designs. The two walks of an assignment share no code for targets; that they agree is a statement about all left sides, alignments and cuts.", "anchors": ["source/DataFlowAnalysis.cpp: handle(AssignmentExpression), handleAssignmentLegacy", "source/BitSliceList.cpp: build, alignSegments"]}
{"id": "C111", "title": "Automatic variables are skipped", "statement": "The analysis of a block takes no notice of automatic variables: from every state it does exactly what it does for the block without the uses of such variables, with all assignments and branches kept.", "quantifier": "all blocks, all states, all settings of the options", "why_tests_cant": "The one test has a narrowing conversion in the read of the variable, which takes the read to noteReference; whether a use gets there depends on the walk of the assignment, the option for bits and the form of the expression.", "anchors": ["source/DataFlowAnalysis.cpp: noteReference, handle(AssignmentExpression), driveLhsLspSegment, driveRhsLspSegment"]}
{"id": "C112", "title": "Unreachable code records nothing", "statement": "Code after a jump, which is never executed, leaves nothing behind in the analysis of a block but nodes of its own: no driver, no pending read and no non-blocking assignment is recorded for it, no edge joins its nodes to others, and a branch that ends in a jump does not change the state after the other branch.", "quantifier": "all states, all blocks, all settings of the options", "why_tests_cant": "Whether a use counts is decided in noteReference from the reachability of the current state; a test sees one piece of code after one jump, and not every way a use can be recorded and every way states are joined in unreachable code.", "anchors": ["source/DataFlowAnalysis.cpp: noteReference, joinState, mergeStates, unreachableState, handle(AssignmentExpression)"]}

{"claims": [
  {"property": "C01", "status": "proved", "theorems": ["Verif.Props.graph_refines_edge_list", "Verif.Props.in_edges_mirror_out_edges", "Verif.Props.degrees_sum"], "note": "sequential histories; concurrent insertion is C04/C05"},
  {"property": "C02", "status": "proved", "theorems": ["Verif.Props.edge_lookup_oldest", "Verif.Props.edge_lookup_both_ends", "Verif.Props.addEdge_idempotent", "Verif.Props.removeEdge_exact", "Verif.Props.graph_refines_edge_list"], "note": ""},
  {"property": "C03", "status": "proved", "theorems": ["Verif.Props.removeNode_exact", "Verif.Props.graph_refines_edge_list"], "note": ""},
  {"property": "C04", "status": "partial", "theorems": ["Verif.Props.insertion_progress_partial", "Verif.Props.insertions_finish_partial", "Verif.Props.insertions_bounded", "Verif.Props.one_source_progress", "Verif.Props.new_edges_progress", "Verif.Props.reciprocal_insertions_deadlock"], "note": "Progress and termination when the requested pairs are acyclic; reciprocal insertions can deadlock (witness), contrary to the developer guide. The tasks of the parallel Phase 2 make no such insertions (C96), so this concerns the parallel resolution of pending reads."},
  {"property": "C05", "status": "proved", "theorems": ["Verif.Props.insertions_linearizable", "Verif.Props.dedup_exactly_once", "Verif.Props.parallel_edges_dangle"], "note": "Also covers addNewEdge; parallel_edges_dangle shows that the in-list order, which the claim does not fix, matters for a later removeEdge."},
  {"property": "C06", "status": "proved", "theorems": ["Verif.Props.path_sound_complete"], "note": "A returned path is a simple walk over enabled edges from start to end."},
  {"property": "C07", "status": "partial", "theorems": ["Verif.Props.path_sound_complete", "Verif.Props.path_to_self_is_empty"], "note": "Complete for distinct endpoints; a path from a node back to itself is never returned (negation proved)."},
  {"property": "C08", "status": "proved", "theorems": ["Verif.Props.comb_path_sound_complete"], "note": ""},
  {"property": "C09", "status": "proved", "theorems": ["Verif.Props.combFanOut_exact"], "note": ""},
  {"property": "C10", "status": "proved", "theorems": ["Verif.Props.combFanIn_exact", "Verif.Props.fan_in_out_dual", "Verif.Props.fan_duality_fails_at_registers"], "note": "Duality holds between non-register nodes; the register case differs by definition and is shown."},
  {"property": "C11", "status": "proved", "theorems": ["Verif.Props.loops_are_genuine"], "note": ""},
  {"property": "C12", "status": "partial", "theorems": ["Verif.Props.loops_cover_cycles_partial", "Verif.Props.some_loops_are_missed"], "note": "Cyclic components are detected, but not every simple cycle is listed (negation proved)."},
  {"property": "C13", "status": "proved", "theorems": ["Verif.Props.loops_canonical", "Verif.Props.ids_unique", "Verif.Props.ids_collide_after_second_build"], "note": ""},
  {"property": "C14", "status": "partial", "theorems": ["Verif.Props.constantDrivers_partial", "Verif.Props.constant_drivers_ignore_registers", "Verif.Props.constant_drivers_ignore_disabled"], "note": "The list is exact relative to the fan-in the code computes; that fan-in ignores registers and disabled edges, shown by two concrete graphs."},
  {"property": "C15", "status": "proved", "theorems": ["Verif.Props.sensitivity_of_register", "Verif.Props.sensitivity_of_comb"], "note": ""},
  {"property": "C16", "status": "partial", "theorems": ["Verif.Props.named_nodes", "Verif.Props.lookup_exact_partial", "Verif.Props.build_then_query_fresh", "Verif.Props.lookup_is_stale"], "note": "Exact while the index is current; the index is never invalidated (negation proved)."},
  {"property": "C17", "status": "proved", "theorems": ["Verif.Props.getDrivers_exact", "Verif.Props.getBitDrivers_exact", "Verif.Props.getBitDriversAll_exact"], "note": ""},
  {"property": "C18", "status": "proved", "theorems": ["Verif.Props.coverage_exact", "Verif.Props.coverage_order_independent"], "note": ""},
  {"property": "C19", "status": "proved", "theorems": ["Verif.Props.dfs_terminates", "Verif.Props.dfs_visits_exactly_reachable", "Verif.Props.dfs_examines_each_edge_once", "Verif.Props.dfs_finishes_each_node"], "note": "call-stack depth of the recursive run() is not modelled"},
  {"property": "C20", "status": "proved", "theorems": ["Verif.Props.glob_matches", "Verif.Props.glob_literal", "Verif.Props.glob_inner_deep", "Verif.Props.glob_subtree", "Verif.Props.glob_leaf", "Verif.Props.glob_segment", "Verif.Props.four_dots_ignore_boundaries", "Verif.Props.glob_visible"], "note": "The documented pattern top....leaf also matches names where the dots are absent (shown)."},
  {"property": "C21", "status": "proved", "theorems": ["Verif.Props.glob_safe", "Verif.Props.past_end_noticed", "Verif.Props.glob_matches"], "note": ""},
  {"property": "C22", "status": "proved", "theorems": ["Verif.Props.filters_exact", "Verif.Props.scope_exact", "Verif.Props.scope_is_subtree_glob", "Verif.Props.blackBox_exact"], "note": ""},
  {"property": "C23", "status": "proved", "theorems": ["Verif.Props.parse_exact", "Verif.Props.parse_print_roundtrip"], "note": ""},
  {"property": "C24", "status": "proved", "theorems": ["Verif.Props.table_aligned", "Verif.Props.table_json_exact", "Verif.Props.table_drops_extra_cells"], "note": ""},
  {"property": "C25", "status": "proved", "theorems": ["Verif.Props.dot_exact", "Verif.Props.dot_undefined", "Verif.Props.dot_labels_not_escaped"], "note": "Names are not escaped in labels (witness shown); defined unless a selected node has no kind."},
  {"property": "C26", "status": "partial", "theorems": ["Verif.Props.slices_tile", "Verif.Props.align_tiles", "Verif.Props.dynamic_select_breaks_width"], "note": "Proved for all expressions meeting the language width rules; a dynamic select of a signal with cut hints breaks the width (witness)."},
  {"property": "C27", "status": "partial", "theorems": ["Verif.Props.assign_bits_partial", "Verif.Props.assign_walk_choice", "Verif.Props.assign_never_asserts", "Verif.Props.sign_extension_loses", "Verif.Props.narrowing_is_coarse", "Verif.Props.dynamic_select_loses", "Verif.Props.dynamic_target_loses"], "note": "Sound for static selects without sign extension, exact when further nothing is narrowed; witnesses for what is excluded."},
  {"property": "C28", "status": "partial", "theorems": ["Verif.Props.driver_map_exact_partial", "Verif.Props.driver_range_exact_partial", "Verif.Props.driver_intervals_exact_partial", "Verif.Props.tracker_exact_partial", "Verif.Props.overwrite_leaks_to_other_bits", "Verif.Props.partial_overlap_not_read", "Verif.Props.driver_map_overflow"], "note": "Exact per bit for every history in which no range is recorded strictly inside an earlier range of the same signal whose bits there and next to it were not recorded again in between (a default followed by its parts from one end to the other is fine, parts_fine). Otherwise the property is false of the code (witness proved): both halves of a split entry share one driver list."},
  {"property": "C29", "status": "partial", "theorems": ["Verif.Props.driver_map_exact_partial", "Verif.Props.released_list_is_used", "Verif.Props.released_list_is_reused", "Verif.Props.shared_list_released_once"], "note": "No released list is touched in histories as in C28 (every call returns ok). False in general: witnesses of use after release and of confusion proved."},
  {"property": "C30", "status": "partial", "theorems": ["Verif.Props.merge_order_independent_partial", "Verif.Props.merge_order_matters", "Verif.Props.concurrent_merges_exact_partial", "Verif.Props.schedule_changes_drivers"], "note": "Proved for two orders that are both as in C28, in particular for all orders if no range lies strictly inside another; false otherwise (witness proved). The same for merges made by several threads (concurrent_merges_exact_partial, on the lock-level model of C95)."},
  {"property": "C31", "status": "partial", "theorems": ["Verif.Props.difference_exact_partial", "Verif.Props.difference_characterised", "Verif.Props.difference_bounds", "Verif.Props.difference_keeps_covered_point", "Verif.Props.difference_overflow"], "note": "Exact characterisation of the result proved. It equals set difference unless two touching intervals of the second map meet at the last point of an interval of the first; then that point is wrongly kept (witness proved)."},
  {"property": "C32", "status": "partial", "theorems": ["Verif.Props.read_linked_partial", "Verif.Props.read_overlap_lost", "Verif.Props.self_assignment_reads_itself", "Verif.Props.empty_branches_lose_node"], "note": "Holds for reads made for a node whose range lines up with the earlier writes; partially overlapping definitions are lost (witness). Earlier means earlier in the order of the analysis, which visits the left-hand side of an assignment first (witness)."},
  {"property": "C33", "status": "partial", "theorems": ["Verif.Props.nonblocking_recorded_partial", "Verif.Props.nonblocking_driver_partial", "Verif.Props.block_drivers_partial", "Verif.Props.nonblocking_branch_lost", "Verif.Props.dead_nonblocking_recorded"], "note": "Holds when all non-blocking writes of the bit belong to one assignment; with assignments in two branches only the textually last is recorded (witness), and unreachable bit-aligned ones are recorded (witness)."},
  {"property": "C34", "status": "partial", "theorems": ["Verif.Props.reaching_definitions_partial", "Verif.Props.block_drivers_partial", "Verif.Props.reaching_definitions_wrong"], "note": "Exact for blocks whose written ranges have at most one boundary strictly inside each; otherwise a split interval shares its driver list and gets wrong drivers (witness)."},
  {"property": "C35", "status": "partial", "theorems": ["Verif.Props.dependencies_exact_partial", "Verif.Props.dependencies_sound", "Verif.Props.dependencies_join", "Verif.Props.dependency_step", "Verif.Props.dependencies_any_order_partial", "Verif.Props.second_signal_replaces_first", "Verif.Props.separate_ranges_kept", "Verif.Props.range_extends_iff_touching"], "note": "Exact and order-independent when a pair of nodes is asked for one signal; soundness and connectivity in general; a later signal overwrites the annotation of an earlier one on the same pair."},
  {"property": "C36", "status": "partial", "theorems": ["Verif.Props.sensitivity_exact", "Verif.Props.sequential_iff_edge_triggered_partial", "Verif.Props.edge_triggered_registers_partial", "Verif.Props.register_data_exact", "Verif.Props.drivenOf_exact", "Verif.Props.driven_bits_partial", "Verif.Props.assigned_bit_registered_partial", "Verif.Props.sequential_block", "Verif.Props.combinational_block", "Verif.Props.select_clock_is_combinational", "Verif.Props.select_event_dropped"], "note": "Holds when every edge-triggered event names a plain signal. Events on selects or expressions are dropped, and a block with only such events is treated as combinational (witnesses)."},
  {"property": "C37", "status": "proved", "theorems": ["Verif.Props.cuts_exact"], "note": "For every sequence of addCuts calls."},
  {"property": "C38", "status": "partial", "theorems": ["Verif.Props.variable_lookup_exact_partial", "Verif.Props.variable_lookup_unique_partial", "Verif.Props.variable_lookupAll_exact", "Verif.Props.descending_range_not_found"], "note": "Exact for ascending ranges with disjoint or equal registrations; a descending range is not found (witness)."},
  {"property": "C39", "status": "proved", "theorems": ["Verif.Props.file_indices_consistent", "Verif.Props.symbol_records_stable", "Verif.Props.entries_are_arguments", "Verif.Props.interning_progresses"], "note": "For all schedules of a sequentially consistent step machine; file indices for fewer than 2^32 names. Unlocked readers of the deque are not modelled."},
  {"property": "C40", "status": "partial", "theorems": ["Verif.Props.save_load_partial", "Verif.Props.save_load_simple", "Verif.Props.parallel_edges_lost", "Verif.Props.repeated_ids_move_edges", "Verif.Props.in_edge_order_changes"], "note": "Full round trip for graphs without parallel edges and with distinct IDs; parallel edges are merged by load (witness)."},
  {"property": "C41", "status": "partial", "theorems": ["Verif.Props.load_ok_iff", "Verif.Props.load_never_asserts", "Verif.Props.load_edges_partial", "Verif.Props.load_version_partial", "Verif.Props.version_check_is_lossy", "Verif.Props.load_tables"], "note": "Acceptance is characterised exactly; the version test wraps, so some other versions are accepted (witness). Edges connect the named IDs when IDs are distinct."},
  {"property": "C42", "status": "proved", "theorems": ["Verif.Props.parallel_reads_equal_sequential", "Verif.Props.parallel_exception", "Verif.Props.phase2_progress", "Verif.Props.phase2_bounded", "Verif.Props.buffers_private", "Verif.Props.drained_count", "Verif.Props.sequential_reads", "Verif.Props.sequential_exception", "Verif.Props.exception_choice_depends_on_schedule", "Verif.Props.dependent_reads_depend_on_schedule", "Verif.Props.enqueue_exact"], "note": "For all schedules of a sequentially consistent step machine. Hypothesis: the reads a block queues do not depend on what other blocks do (the analysis of a block consults the shared state only for variable nodes, which never decides what is queued); a witness shows it is needed. When several blocks throw, which exception is reported depends on the schedule (witness)."},
  {"property": "C43", "status": "proved", "theorems": ["Verif.Props.runs_partition", "Verif.Props.parallel_joins_same", "Verif.Props.parallel_is_sorted_sequential", "Verif.Props.parallel_bits_same_partial", "Verif.Props.sort_order_shows", "Verif.Props.resolve_choice"], "note": "Dependencies are inserted atomically (see C04 and C05 for the locking). Beyond the claim: the annotations are those of the sorted queue, and may differ from sequential ones when a pair is joined by several signals."},
  {"property": "C44", "status": "partial", "theorems": ["Verif.Props.pending_read_exact", "Verif.Props.pending_read_drivers_partial"], "note": "Exact relative to the driver map and variable table; stated from the recordings for histories on which the map is exact and ascending ranges."},
  {"property": "C45", "status": "proved", "theorems": ["Verif.Props.port_segments_tile", "Verif.Props.port_segments_plain", "Verif.Props.tile_bit", "Verif.Props.port_slices_exact"], "note": ""},
  {"property": "C46", "status": "proved", "theorems": ["Verif.Props.external_is_partial_map"], "note": "For histories of fewer than 2^32 calls."},
  {"property": "C47", "status": "partial", "theorems": ["Verif.Props.canonical_answer_partial", "Verif.Props.canonical_order_independent_partial", "Verif.Props.canonical_order_matters"], "note": "Holds where at most one enclosing body is marked as a copy, which the resolver documents as a property of slang; otherwise the answer depends on earlier queries (witness)."},
  {"property": "C48", "status": "proved", "theorems": ["Verif.Props.constant_slice", "Verif.Props.assign_constants"], "note": ""},
  {"property": "C49", "status": "proved", "theorems": ["Verif.Props.names_round_trip", "Verif.Props.names_distinct", "Verif.Props.unknown_names"], "note": ""},
  {"property": "C50", "status": "partial", "theorems": ["Verif.Props.cli_priority", "Verif.Props.lone_start_is_fanOut", "Verif.Props.lone_end_is_fanIn", "Verif.Props.explicit_fan_wins_partial", "Verif.Props.explicit_fanIn_loses", "Verif.Props.false_flag_is_ignored"], "note": "Priority and aliasing are exact; an explicit fan-in request loses to a lone start (negation proved)."},
  {"property": "C51", "status": "proved", "theorems": ["Verif.Props.fanOut_report_exact", "Verif.Props.fanIn_report_exact", "Verif.Props.register_report_exact", "Verif.Props.find_report_exact", "Verif.Props.findRegex_report_exact"], "note": "Relative to the regular-expression library for the regex search."},
  {"property": "C52", "status": "partial", "theorems": ["Verif.Props.path_report_exact", "Verif.Props.loop_report_exact", "Verif.Props.inout_path_undefined", "Verif.Props.path_text_may_name_disabled_edge", "Verif.Props.diag_report_exact", "Verif.Props.diag_mode"], "note": "Reports by diagnostics (netlists built from sources) say the same as reports by text (diag_report_exact; the rendering of a diagnostic is slang's). An inout or ref port on the path makes the report undefined, and with parallel edges the printed value may belong to an unused edge (both proved)."},
  {"property": "C53", "status": "partial", "theorems": ["Verif.Props.port_bits_partial", "Verif.Props.port_walk_choice"], "note": "Same exclusions as C27 (sign extension, narrowing, dynamic selects)."},
  {"property": "C54", "status": "partial", "theorems": ["Verif.Props.actual_cuts_exact_partial", "Verif.Props.zero_width_records_endpoint", "Verif.Props.conditional_records_no_cut"], "note": "Exact without conditionals, folded conversions and zero-width parts; witnesses for the exclusions."},
  {"property": "C55", "status": "partial", "theorems": ["Verif.Props.kinds_kept_partial", "Verif.Props.second_kind_replaces_first"], "note": "Holds when a pair of nodes is asked for one edge kind; otherwise the last kind replaces the first."},
  {"property": "C56", "status": "partial", "theorems": ["Verif.Props.register_read_partial", "Verif.Props.partial_register_read_lost", "Verif.Props.half_register_read_lost"], "note": "A read of exactly the registered range is connected; for every other range no dependency arises (general theorem and witness)."},
  {"property": "C57", "status": "partial", "theorems": ["Verif.Props.no_bypass_partial", "Verif.Props.modport_register_bypassed", "Verif.Props.interface_register_bypassed"], "note": "Holds unless a driven symbol is a modport port or a variable with a node for the driven range; then the driver is connected to the variable node directly (witnesses)."},
  {"property": "C58", "status": "partial", "theorems": ["Verif.Props.hookup_exact", "Verif.Props.port_node_exact", "Verif.Props.register_to_port_partial", "Verif.Props.driver_to_port_partial", "Verif.Props.straddling_port_unconnected"], "note": "Connected when one port node holds the whole driven range; a range straddling two port nodes is connected to neither (witness)."},
  {"property": "C59", "status": "proved", "theorems": ["Verif.Props.interface_write_connected", "Verif.Props.extra_has"], "note": "Relative to the result of resolveInterfaceRef, which is C79 (composed in modport_write_connected). Which node is hit when several are registered for the range is not fixed."},
  {"property": "C60", "status": "partial", "theorems": ["Verif.Props.branch_controls_partial", "Verif.Props.assignment_nodes_controlled", "Verif.Props.second_assignment_uncontrolled", "Verif.Props.later_assignment_controlled"], "note": "Holds for the leading assignments of each branch; later ones get no edge (witness), and an assignment after the conditional may get one (witness)."},
  {"property": "C61", "status": "partial", "theorems": ["Verif.Props.branches_merged_partial"], "note": "For blocks whose written ranges have at most one boundary strictly inside each."},
  {"property": "C62", "status": "partial", "theorems": ["Verif.Props.design_drivers_partial", "Verif.Props.block_to_block_partial", "Verif.Props.design_registers_partial", "Verif.Props.register_to_block_partial", "Verif.Props.parallel_build_same"], "note": "For designs whose written ranges have at most one boundary strictly inside each and whose blocks some path leads through. Reads of a register, in its own block and by port connections as well, are covered for the exact range of the register. Assignments are identified by source location. Nothing is claimed about the absence of other edges."},
  {"property": "C63", "status": "partial", "theorems": ["Verif.Props.phase1_total_partial", "Verif.Props.ports_split_at_cuts_partial", "Verif.Props.build_by_events", "Verif.Props.blackbox_opaque", "Verif.Props.uninstantiated_skipped", "Verif.Props.instance_ports_first", "Verif.Props.outer_ports_first", "Verif.Props.multi_port_faults", "Verif.Props.opaque_output_reads"], "note": "Multi-port connections, which end in SLANG_UNREACHABLE (witness), are excluded. Cut points are covered for actuals made of selects and concatenations."},
  {"property": "C64", "status": "partial", "theorems": ["Verif.Props.netlist_total_partial", "Verif.Props.input_port_partial", "Verif.Props.output_port_partial", "Verif.Props.output_read_partial", "Verif.Props.hierarchy_path_partial", "Verif.Props.path_found_partial"], "note": "For designs as in C62. Inputs: signals that are not modport ports and have no node of their own. Outputs: the actual is a select or concatenation, no input port supplies the bit, and one port node holds the driven range (see C58). Nothing is claimed about the absence of other paths."},
  {"property": "C65", "status": "proved", "theorems": ["Verif.Props.edges_justified", "Verif.Props.edge_between_assignments", "Verif.Props.paths_justified", "Verif.Props.read_of_edge", "Verif.Props.write_of_edge", "Verif.Props.bare_read_feeds_assignment"], "note": "For every design whose netlist is built without a fault. A statement that reads without an assignment or condition of its own counts as a read by the assignment before it (witness bare_read_feeds_assignment)."},
  {"property": "C66", "status": "partial", "theorems": ["Verif.Props.edges_justified_bits_partial", "Verif.Props.paths_justified_bits_partial", "Verif.Props.inner_edge_carries_whole_read"], "note": "For designs whose written ranges have at most one boundary strictly inside each and whose blocks some path leads through. An edge inside one block carries the whole range read even if the source writes only part of it (witness). Connections that are not resolved bit by bit (conditionals, sign extension, dynamic selects) tie all their bits."},
  {"property": "C67", "status": "proved", "theorems": ["Verif.Props.path_answers", "Verif.Props.comb_path_answers", "Verif.Props.loop_answers", "Verif.Props.no_cycle_no_loop", "Verif.Props.fan_out_answers", "Verif.Props.fan_in_answers", "Verif.Props.register_sensitivity_answers", "Verif.Props.comb_sensitivity_answers"], "note": "For every design whose netlist is built without a fault; the dependences are those of C65 (signal by signal)."},
  {"property": "C68", "status": "proved", "theorems": ["Verif.Props.nodes_exact", "Verif.Props.nodes_exact_bits_partial", "Verif.Props.node_belongs", "Verif.Props.text_nodes_counted", "Verif.Props.text_node_unique"], "note": "For every design whose netlist is built without a fault. How many port and register nodes there are is the subject of C58 and C62. nodes_exact_bits_partial adds, for designs as in C66, that registers have only bits written last on some path. Value and width of constants connected to ports are not stated."},
  {"property": "C69", "status": "partial", "theorems": ["Verif.Props.cycle_reported_partial", "Verif.Props.guarded_loop_missed"], "note": "For designs of C64, with instances of a module told apart (a marked design, which always exists by C70). A loop through a condition is missed when its assignment is not the first one under the condition (witness guarded_loop_missed). Dependences the builder loses (C62, C64 partial) are not counted as passing a value."},
  {"property": "C70", "status": "proved", "theorems": ["Verif.Props.places_only_label", "Verif.Props.queries_ignore_places", "Verif.Props.marked_exists", "Verif.Props.occurrences_exact"], "note": "For every design, also those whose build faults. The places of constants, ports and signals are not moved."},
  {"property": "C71", "status": "partial", "theorems": ["Verif.Props.influence_path_partial", "Verif.Props.no_path_no_influence_partial", "Verif.Props.no_path_same_output_partial", "Verif.Props.influence_lost_second", "Verif.Props.influence_lost_swap"], "note": "For designs of C64 whose combinational blocks are latch-free blocking assignments under conditions with at most one assignment or condition per branch, whose reads line up with the writes, and whose output connections are resolved bit by bit. Outside, influences are lost: of a condition on the second assignment of a branch (witness influence_lost_second), and between the segments of one assignment (witness influence_lost_swap)."},
  {"property": "C72", "status": "partial", "theorems": ["Verif.Props.text_influence_partial", "Verif.Props.text_same_output_partial", "Verif.Props.influence_lost_sign", "Verif.Props.text_cuts_option"], "note": "For designs of C71, with static selects in aligned assignments and on left sides. Sign extension loses an influence: the bits above the operand have no source in the graph (witness influence_lost_sign)."},
  {"property": "C73", "status": "partial", "theorems": ["Verif.Props.text_total_partial", "Verif.Props.rootless_select"], "note": "For assignments that select from signals. A select from something without a symbol, such as the result of a call, dereferences a null pointer in the aligned walk (witness rootless_select)."},
  {"property": "C74", "status": "proved", "theorems": ["Verif.Props.whole_assignment_exact", "Verif.Props.force_reads_target"], "note": "Left sides of force statements are noted as read by this walk and ignored by the aligned one (witness force_reads_target)."},
  {"property": "C75", "status": "partial", "theorems": ["Verif.Props.scopes_exact_partial", "Verif.Props.pattern_in_order", "Verif.Props.unmatched_scope_rejected", "Verif.Props.covered_pattern_rejected"], "note": "The selection is exact. A pattern that matches only symbols selected by earlier arguments is rejected as matching nothing (witness covered_pattern_rejected)."},
  {"property": "C76", "status": "partial", "theorems": ["Verif.Props.report_exact_partial", "Verif.Props.nested_scopes_repeat", "Verif.Props.shared_body_misreported"], "note": "For scopes that are not nested and designs in which no instance is elaborated in the body of another. Nested scopes repeat rows, and an instance that shares a body is reported with the declarations of the other instance (witnesses)."},
  {"property": "C77", "status": "proved", "theorems": ["Verif.Props.report_formats_agree", "Verif.Props.report_objects_exact"], "note": ""},
  {"property": "C78", "status": "partial", "theorems": ["Verif.Props.report_choice_partial", "Verif.Props.several_actions_accepted"], "note": "Holds when exactly one action or none is given. Several actions are accepted and all but one ignored, an action switched off is made, and the format is not checked for --ast-json (witnesses)."},
  {"property": "C79", "status": "partial", "theorems": ["Verif.Props.interface_ref_exact", "Verif.Props.interface_ref_members", "Verif.Props.interface_ref_ends_partial", "Verif.Props.modport_write_connected", "Verif.Props.self_expanding_reference"], "note": "Relative to the expansion of indirect references by slang. Ends if no chain of connections is endless; a reference whose expansion delivers itself recurses without end (self_expanding_reference)."},
  {"property": "C80", "status": "proved", "theorems": ["Verif.Props.task_stats_exact", "Verif.Props.task_stats_order"], "note": "With exact arithmetic; the code rounds to doubles."},
  {"property": "C81", "status": "partial", "theorems": ["Verif.Props.influence_over_time_partial", "Verif.Props.no_path_same_forever_partial", "Verif.Props.influence_lost_first"], "note": "For designs of C71 whose edge-triggered blocks consist of non-blocking assignments under conditions, write and read registers as a whole, also where these are connected to input ports of instances (a part of a register is not connected to it, see C56). A register loaded in several alternatives keeps only the textually last assignment, so influences of the others are lost (witness influence_lost_first); the theorems allow further assignments that read nothing, such as resets. Effects on when a block fires are the subject of C90."},
  {"property": "C82", "status": "partial", "theorems": ["Verif.Props.reload_report_partial", "Verif.Props.reload_nodes_report", "Verif.Props.reload_paths", "Verif.Props.reload_loses_driver"], "note": "All reports, if no two edges of the built netlist join the same two nodes; in general, the reports on registers, names, fans and constant drivers, and the existence of paths and cycles. With parallel edges the driver report changes (witness reload_loses_driver). Hypotheses: numbers fit the machine types, symbols are determined by their path, texts of constants are read back unchanged."},
  {"property": "C83", "status": "partial", "theorems": ["Verif.Props.run_success", "Verif.Props.run_failure", "Verif.Props.run_status", "Verif.Props.run_load_only", "Verif.Props.run_save", "Verif.Props.save_load_run_partial", "Verif.Props.run_rejects", "Verif.Props.run_load_fails", "Verif.Props.run_skips"], "note": "Status 0 comes with exactly the answer chosen, any other status with none (a report on loops may be cut short). Two runs over a saved file answer like a single run if no two edges of the netlist join the same two nodes. Disagreement: an option can be ignored although the status is 0 (witness run_skips). slang itself is a parameter: whether it accepts options, sources and design, and which nodes have a source location."},
  {"property": "C84", "status": "proved", "theorems": ["Verif.Props.cache_transparent", "Verif.Props.cache_answers", "Verif.Props.text_location_exact"], "note": "All interleavings of all threads, with interning as one atomic step (C39 gives its steps) and for builds started by NetlistGraph::build, which runs both halves of a build without another build between them on the same thread."},
  {"property": "C85", "status": "partial", "theorems": ["Verif.Props.py_defined_partial", "Verif.Props.py_iterated_safe", "Verif.Props.py_query_unprotected", "Verif.Props.py_same_object", "Verif.Props.py_query_exact", "Verif.Props.py_names_frozen", "Verif.Props.py_drivers_keep", "Verif.Props.py_names_stale", "Verif.Props.py_drivers", "Verif.Props.py_cone_exact", "Verif.Props.py_sensitivity_exact", "Verif.Props.py_find_path", "Verif.Props.py_path", "Verif.Props.py_iterate", "Verif.Props.py_path_iterate", "Verif.Props.py_new_path", "Verif.Props.py_counts", "Verif.Props.py_lookup_dangles", "Verif.Props.py_iteration_dangles", "Verif.Props.py_misuse"], "note": "Exactly which calls are defined after any program; what each call gives. The claim itself is false: handles from queries and paths do not keep their graph (py_query_unprotected, witness py_lookup_dangles), a handle from an iteration does unless a query gave it first (py_iterated_safe, py_iteration_dangles), and paths do not check indices (py_misuse). The first query by name freezes the names of its graph (py_names_frozen, witness py_names_stale). pybind11 is modelled by its documented behaviour; several Python threads and a graph outliving its compilation are not modelled."},
  {"property": "C86", "status": "partial", "theorems": ["Verif.Props.drivers_report_exact", "Verif.Props.description_identifies", "Verif.Props.constants_report_partial", "Verif.Props.constant_drivers_ignore_registers", "Verif.Props.constant_drivers_ignore_disabled", "Verif.Props.sensitivity_report_exact", "Verif.Props.dot_report_exact"], "note": "Driver, sensitivity and DOT reports are exact, rows spelt out. Partial because the constant report inherits the failures of C14: nodes fed by registers, or by ports whose in-edges are disabled, are reported as tied off (negations proved)."},
  {"property": "C87", "status": "partial", "theorems": ["Verif.Props.fork_sound_partial", "Verif.Props.fork_drivers", "Verif.Props.fork_only", "Verif.Props.fork_reachable", "Verif.Props.fork_overwritten_kept", "Verif.Props.fork_read_lost"], "note": "The drivers after the block are exactly those that are last on a path through one branch alone, which includes the last one of every interleaving; for ranges as in C34. Reads in a branch miss definitions of the other branches (witness), and definitions that every interleaving overwrites are kept (witness)."},
  {"property": "C88", "status": "partial", "theorems": ["Verif.Props.static_loop_sound_partial", "Verif.Props.static_loop_drivers", "Verif.Props.static_loop_carried", "Verif.Props.static_loop_keeps", "Verif.Props.open_loop_sound_partial", "Verif.Props.open_loop_drivers", "Verif.Props.open_loop_nonblocking", "Verif.Props.open_loop_condition", "Verif.Props.open_loop_lost", "Verif.Props.open_loop_not_carried"], "note": "For ranges as in C34. After an unrolled loop the drivers are exactly those of the run of all iterations and those of a run of none, so overwritten definitions are kept (witness). A loop that is not unrolled leaves the drivers as they were: its blocking assignments are lost and nothing is carried between its runs (witnesses; the project describes the first as a known limitation)."},
  {"property": "C89", "status": "partial", "theorems": ["Verif.Props.visit_covers_partial", "Verif.Props.visit_exact", "Verif.Props.visit_once", "Verif.Props.visit_count", "Verif.Props.deferred_exact", "Verif.Props.analysed_exact", "Verif.Props.visit_skips"], "note": "Whatever the analysis of a deferred block looks at has been visited, for all ASTs; exactly which elements are visited, once each, and what is counted. The descriptions in the code and in the bindings also say that the whole AST is visited, which is false: initializers of values and of static variables and modules outside the design are left out (witness)."},
  {"property": "C90", "status": "partial", "theorems": ["Verif.Props.influence_through_clocks_partial", "Verif.Props.no_path_same_clocked_partial", "Verif.Props.clock_influence_lost"], "note": "For designs of C81 in which a register that is a clock is written as a whole. If it is written in part, the edge from it into the registers it clocks is missing and the influence is lost (witness clock_influence_lost, where all other hypotheses hold). Events are names of signals, since edges of selections are ignored (C36)."},
  {"property": "C91", "status": "partial", "theorems": ["Verif.Props.text_influence_over_time_partial", "Verif.Props.text_same_over_time_partial"], "note": "C90 from the text of the design (as C72 is C71 from the text). Left sides and aligned right sides select statically; the designs are those of C90."},
  {"property": "C92", "status": "proved", "theorems": ["Verif.Props.report_run_exact", "Verif.Props.report_run_fails"], "note": "slang itself is a parameter: whether it accepts options, sources, design and analysis, and what a name looks up. What a report contains is C76 to C78."},
  {"property": "C93", "status": "proved", "theorems": ["Verif.Props.block_is_script", "Verif.Props.ds_script", "Verif.Props.order_changes_netlist"], "note": "The list is found from the block alone and works for all builders, unconditionally. order_changes_netlist is the witness that the lookups make the result depend on the order of the blocks."},
  {"property": "C94", "status": "partial", "theorems": ["Verif.Props.any_schedule_partial", "Verif.Props.any_schedule_fault_partial", "Verif.Props.block_order_partial", "Verif.Props.parallel_blocks_partial", "Verif.Props.reordered_blocks_partial", "Verif.Props.parallel_netlist_partial", "Verif.Props.reordered_netlist_partial"], "note": "Proved for all schedules under Separate, a condition on the operations of the blocks, and under OneWriter, a condition on the writes in the blocks (no bit is written in two blocks). Without it the statement is false already for two orders of the blocks (order_changes_netlist, C93). Partial because the operations (a call to the graph, the variable tracker or the driver map of a signal, under its lock) are steps that are not interrupted (C98 splits them), and because the ranges ports drive and the writes inside each block are aligned (Plain). For whole designs (parallel_netlist_partial) the builder that C94 starts from is that of Phase 1."},
  {"property": "C95", "status": "proved", "theorems": ["Verif.Props.recordings_linearizable", "Verif.Props.recordings_tracker_ok", "Verif.Props.recordings_fault_free", "Verif.Props.recordings_progress", "Verif.Props.recordings_bounded", "Verif.Props.recordings_finish", "Verif.Props.recorded_tracker_ok"], "note": "Proved for all programs, all schedules and all trackers that no thread is using. The order is that of the updates. Memory is sequentially consistent; exceptions from allocation are not modelled."},
  {"property": "C96", "status": "partial", "theorems": ["Verif.Props.tasks_end_partial", "Verif.Props.phase2_ends_partial", "Verif.Props.cross_deadlock"], "note": "Proved for all schedules of small steps and all designs whose writes inside each block, and the ranges ports drive, are aligned (Plain) and whose blocks do not write a port symbol by its own name. Memory is sequentially consistent, creating a node and recording a driver (C95) are one step each, and exceptions from allocation are not modelled. For other operations than those of blocks it is false (cross_deadlock)."},
  {"property": "C97", "status": "partial", "theorems": ["Verif.Props.one_adder_partial", "Verif.Props.phase2_ends_partial"], "note": "Proved under the conditions of C96."},
  {"property": "C98", "status": "partial", "theorems": ["Verif.Props.small_steps_partial", "Verif.Props.small_steps_netlist_partial"], "note": "Proved for all schedules of small steps under OneWriter (no bit is written in two blocks) and Plain (aligned writes). Partial because memory is sequentially consistent, because recording a driver (C95) and registering a variable node are one step each, and because of Plain. The in list of a node agrees with the out lists for each source; across sources its order may differ, and so does that of an out list across targets."},
  {"property": "C99", "status": "partial", "theorems": ["Verif.Props.interface_flow_partial", "Verif.Props.interface_path_partial", "Verif.Props.part_of_interface_lost"], "note": "Proved for all designs of C62 and all blocks. Partial because a read must have the very range of a node (false otherwise: part_of_interface_lost), because a direct write must have it too, because variables written at a clock edge are left out (interface_register_bypassed, C57), and because a modport port that is written must stand for the range in all its uses: the model of the flow inside a block (Leaves) does not follow the expression of a write."},
  {"property": "C100", "status": "partial", "theorems": ["Verif.Props.influence_via_partial", "Verif.Props.no_path_via_partial", "Verif.Props.no_path_same_via_partial", "Verif.Props.cycle_reported_partial"], "note": "For the designs of C71 (RegularVia repeats its conditions) whose interface variables are read in the ranges in which they are driven, not written at clock edges and connected to ports of modules only as C101 allows: input ports, in the range of a node, after the interface. Without these the influence is lost (part_of_interface_lost, C99; output_on_interface_lost and late_interface_lost, C101). Loops through interfaces: cycle_reported_partial (C69), whose dependences include those of C99."},
  {"property": "C101", "status": "partial", "theorems": ["Verif.Props.interface_inputs_partial", "Verif.Props.variables_entered_by_assignments", "Verif.Props.output_on_interface_lost", "Verif.Props.late_interface_lost"], "note": "Input ports: proved for all designs of C62 if a variable behind a modport port is met before the connection (false otherwise: late_interface_lost) and is behind all uses of the modport port, and if a variable that is connected directly is connected in the range of a node and not written at a clock edge. Output ports: false, and for all designs, since only assignments enter nodes of interface variables (variables_entered_by_assignments); output_on_interface_lost is a design in which the dependency is lost."},
  {"property": "C102", "status": "partial", "theorems": ["Verif.Props.over_time_via_partial", "Verif.Props.no_path_forever_via_partial", "Verif.Props.clock_lost_on_interface"], "note": "For designs of C100 whose edge-triggered blocks are as in C81 or write modport ports in the range of a node of the variable (an edge-triggered write of the variable itself is left out, see C57). Reads of interfaces in edge-triggered blocks are in the range of a node. Effects on when a block fires are left out (C105 has them); for registers on an interface they are really lost (clock_lost_on_interface)."},
  {"property": "C103", "status": "partial", "theorems": ["Verif.Props.process_ids_partial", "Verif.Props.jobs_ids", "Verif.Props.loads_undisturbed", "Verif.Props.merge_distinct", "Verif.Props.builds_collide", "Verif.Props.build_disturbs_load"], "note": "Proved for netlists during whose making no builder is constructed, in particular for all netlists that are built and loaded one after another, and for loads at the same time. False for two builds, or a build and a load, at the same time: IDs repeat in one netlist, merge takes two nodes for one (builds_collide), and saving moves edges (build_disturbs_load, C40)."},
  {"property": "C104", "status": "partial", "theorems": ["Verif.Props.text_via_partial", "Verif.Props.text_same_via_partial", "Verif.Props.text_over_time_via_partial", "Verif.Props.text_forever_via_partial"], "note": "C100 and C102 from the text of the design (as C72 and C91 are C71 and C90 from the text). Left sides and aligned right sides select statically; the designs are those of C100 and C102. What a modport port stands for, bit by bit, is a hypothesis on the values (Shared) and not read off the text of the modport."},
  {"property": "C105", "status": "partial", "theorems": ["Verif.Props.influence_through_clocks_via_partial", "Verif.Props.no_path_same_clocked_via_partial", "Verif.Props.text_clocks_via_partial", "Verif.Props.text_same_clocks_via_partial"], "note": "C90 for the designs of C102, for what the analysis sees and for the text of the design (text_*; without dynamic selects, as C91). Blocks that write registers on interfaces have to fire at the same times in both observations, without which the statement is false (clock_lost_on_interface, C102). Left out: designs that are not regular or not timed, and clocks that come over an interface, through a port connected to one included. A register that is a clock is written as a whole."},
  {"property": "C106", "status": "partial", "theorems": ["Verif.Props.jump_drivers_partial", "Verif.Props.jump_blocking", "Verif.Props.jump_reachable", "Verif.Props.jump_loop_blocking", "Verif.Props.jump_loop_runs", "Verif.Props.jump_read_linked_partial", "Verif.Props.jump_controls_partial", "Verif.Props.scope_plain", "Verif.Props.jump_dead_recorded", "Verif.Props.jump_early_lost", "Verif.Props.jump_condition_lost"], "note": "The drivers at the end of a block with jumps, exactly, for ranges as in C34; loops are unrolled, with the join of the state before the loop that C88 has. That the states at jumps are kept and joined at the place they lead to is an assumption on slang. Non-blocking assignments in dead code (jump_dead_recorded) and before an early exit (jump_early_lost) are recorded wrongly, as without jumps. Reads see what arrives, jumps taken before left out (jump_read_linked_partial, as C32); the condition of an exit controls the next assignment (jump_controls_partial), but its influence on later ones is lost (jump_condition_lost)."},
  {"property": "C107", "status": "proved", "theorems": ["Verif.Props.loaded_says"], "note": "Relative to the constant codec (a parameter) and to the JSON library as modelled for C41."},
  {"property": "C108", "status": "partial", "theorems": ["Verif.Props.nested_exact_partial", "Verif.Props.nested_drivers_partial", "Verif.Props.nested_blocking_partial", "Verif.Props.nested_outer_closed", "Verif.Props.nested_read_linked_partial", "Verif.Props.nested_none", "Verif.Props.nested_flag", "Verif.Props.nested_read_misplaced", "Verif.Props.nested_value_lost", "Verif.Props.nested_condition_lost", "Verif.Props.nested_lhs_wrong", "Verif.Props.nested_segment_wrong"], "note": "The drivers are right if no left-hand side contains an assignment; what an outer assignment reads is not, and the code contradicts the claim: of what is visited for it, only the uses before the first inner assignment reach its node, and those are connected (disagreement 64). In the bit-aligned walk the drivers are proved for blocking assignments inside blocking ones; for non-blocking outer ones the code contradicts the claim."},
  {"property": "C109", "status": "partial", "theorems": ["Verif.Props.force_drivers_partial", "Verif.Props.force_read_linked_partial", "Verif.Props.force_takes_condition", "Verif.Props.force_reads_signal"], "note": "The drivers and what later reads are connected to are the same with and without force statements, for written ranges with at most one boundary strictly inside each. The code contradicts the other two parts (disagreements 43 and 65)."},
  {"property": "C110", "status": "partial", "theorems": ["Verif.Props.bits_option_drivers_partial", "Verif.Props.bits_option_index", "Verif.Props.bits_option_dead", "Verif.Props.bits_option_auto"], "note": "Proved for texts of force statements and assignments with static targets and sides of equal width, without unreachable parts and automatic variables, for written ranges with at most one boundary strictly inside each. For targets with variable index, unreachable non-blocking assignments and automatic variables the code contradicts the claim (disagreement 66)."},
  {"property": "C111", "status": "partial", "theorems": ["Verif.Props.automatic_skipped_partial", "Verif.Props.automatic_text", "Verif.Props.automatic_value_lost", "Verif.Props.automatic_with_bits", "Verif.Props.automatic_test"], "note": "Exact equality for all states, if no part of an assignment resolved bit by bit is an automatic variable by itself; in particular for all texts if bits are not resolved (automatic_text). Otherwise, with the default options, the code contradicts the claim (automatic_with_bits, disagreement 67)."},
  {"property": "C112", "status": "partial", "theorems": ["Verif.Props.unreachable_idle_partial", "Verif.Props.unreachable_branch_partial", "Verif.Props.unreachable_block_partial", "Verif.Props.unreachable_with_bits"], "note": "Proved for all states and all unreachable code whose assignments are not resolved bit by bit, conditionals and joins in it included; the analysis of it succeeds. Otherwise the code contradicts the claim (disagreement 68)."}
]}

{"id":"C01","title":"Packed coordinates round-trip and reject everything outside the grid","statement":"For every row/column pair, building a packed absolute or relative coordinate succeeds exactly when the row is at most 1048575 and the column at most 16383; the row, column and (for relative coordinates) the two anchor flags read back are exactly the ones supplied; decoding a raw 64-bit word and re-encoding returns the same word; and two coordinates with the same raw word are the same position.","quantifier":"all 32-bit rows and columns, all flag pairs, all 64-bit raw words","why_tests_cant":"The packing mixes 20+14+reserved bits in a 64-bit word; a unit test samples a few corners of a 2^64 space and cannot exclude aliasing of two cells onto one key.","anchors":["crates/formualizer-common/src/coord.rs: Coord::new, Coord::try_new, Coord::from_raw, RelativeCoord::new, RelativeCoord::from_raw, with_row_abs, with_col_abs"]}
{"id":"C02","title":"Column letters are a bijection","statement":"Formatting a column index as letters and parsing the letters gives the index back, for every index; parsing an upper-case letter string and formatting gives the string back; parsing is case-insensitive; both the 0-based and the 1-based API agree (shifted by one).","quantifier":"all column indices (unbounded), all non-empty letter strings","why_tests_cant":"Bijective base-26 has irregular carries (Z->AA, ZZ->AAA); testing cannot cover all widths.","anchors":["crates/formualizer-common/src/coord.rs: column_to_letters, letters_to_column_index, col_letters_from_1based, col_index_from_letters_1based","crates/formualizer-common/src/grid_address.rs: unbounded_column_letters"]}
{"id":"C03","title":"A1 text round-trips","statement":"For every in-grid coordinate and every combination of anchor flags, printing it in A1 form and parsing the text yields the same row, column and flags. Parsing never yields a coordinate outside the grid, whatever the text.","quantifier":"all coordinates and flags; all strings","why_tests_cant":"The set of strings is infinite and the parser has several independent error exits.","anchors":["crates/formualizer-common/src/coord.rs: parse_a1_components, RelativeCoord::try_from_a1, impl Display for RelativeCoord"]}
{"id":"C04","title":"Packed sheet-cell keys are injective","statement":"A (sheet, row, column) triple packs into a key exactly when row and column are in the grid; distinct triples never share a key; the three components read back unchanged; decoding a 64-bit word accepts exactly the words some triple packs to.","quantifier":"all sheet ids, rows, columns, and all 64-bit words","why_tests_cant":"A collision in one pair among 2^50 keys silently merges two cells.","anchors":["crates/formualizer-common/src/address.rs: PackedSheetCell::try_new, try_from_u64, try_from_excel_1based, sheet_id, row0, col0"]}
{"id":"C05","title":"Signed coordinate conversion never aliases","statement":"Converting a signed (row, column) pair to a coordinate either fails or yields a coordinate whose row and column equal the numbers supplied.","quantifier":"all pairs of 64-bit signed integers","why_tests_cant":"The failing inputs are at the 2^32 wrap-around, far from anything a test samples.","anchors":["crates/formualizer-common/src/coord.rs: impl TryFrom<(i64, i64)> for Coord"]}
{"id":"C06","title":"Sheet-name quoting is reversible and unambiguous","statement":"For every sheet name, the text emitted for a sheet-qualified reference can be split back into exactly that sheet name and the reference; two different sheet names never format to the same prefix; a name is left unquoted only if every character is safe.","quantifier":"all sheet names (arbitrary strings)","why_tests_cant":"Names may contain quotes, bangs, digits in every position.","anchors":["crates/formualizer-common/src/address.rs: format_a1_sheet_name, a1_sheet_name_needs_quoting","crates/formualizer-parse/src/parser.rs: sheet prefix extraction"]}
{"id":"C07","title":"Calendar dates and serial numbers round-trip in both date systems","statement":"In the 1900 and the 1904 system, every date on or after the epoch converts to a serial that converts back to the same date; later dates have larger serials; the only serial that is not the image of a date under the 1900 system among positive serials is 60 (the phantom 29 Feb 1900).","quantifier":"all dates in the supported range, both systems","why_tests_cant":"Range of 2.9 million days with an off-by-one seam at 1900-03-01.","anchors":["crates/formualizer-common/src/date_serial.rs: date_to_serial_for, date_for_whole_serial, try_serial_to_date_for"]}
{"id":"C08","title":"Time-of-day rounding carries into the date","statement":"Splitting a serial into whole days and seconds yields seconds strictly less than 86400, and days*86400+seconds is the input rounded to the nearest second.","quantifier":"all non-negative rational serials","why_tests_cant":"The carry only happens within half a second of midnight.","anchors":["crates/formualizer-common/src/date_serial.rs: normalized_serial_parts"]}
{"id":"C09","title":"Evaluation layers respect dependencies","statement":"When the scheduler produces layers for a set of vertices, every requested vertex appears in exactly one layer, and every dependency of a vertex that is itself in the request lies in a strictly earlier layer; the scheduler reports a circular error exactly when the request contains a dependency cycle.","quantifier":"all finite dependency graphs and all requested subsets","why_tests_cant":"Depends on every graph shape; parallel evaluation of a layer is only sound if this holds without exception.","anchors":["crates/formualizer-eval/src/engine/scheduler.rs: build_layers, build_layers_with_virtual"]}
{"id":"C10","title":"Cycle detection finds exactly the cells on cycles","statement":"The strongly connected components returned partition the requested vertices; two vertices share a component exactly when each can reach the other through requested vertices; a vertex is reported as circular exactly when it lies on a dependency cycle.","quantifier":"all finite dependency graphs and requested subsets","why_tests_cant":"Iterative Tarjan with hand-managed frames; correctness is a property of all graphs.","anchors":["crates/formualizer-eval/src/engine/scheduler.rs: tarjan_scc_impl, separate_cycles"]}
{"id":"C11","title":"Incrementally maintained order stays topological","statement":"After any sequence of accepted edge insertions and removals, every edge points from an earlier to a later position of the dynamic order, and an insertion is refused exactly when it would close a cycle.","quantifier":"all histories of edge insertions/removals","why_tests_cant":"Violations appear only after particular interleavings of inserts.","anchors":["crates/formualizer-eval/src/engine/topo/pk.rs: DynamicTopo::try_add_edge, splice_after, rebuild_full, layers_for"]}
{"id":"C12","title":"Edge store equals the set of edges implied by its history","statement":"After any sequence of vertex additions, edge additions, edge removals, batches and rebuilds, the dependencies reported for a vertex are exactly the edges last added and not removed, without duplicates, and the dependents view is the exact transpose.","quantifier":"all operation histories, any interleaving of rebuilds and batches","why_tests_cant":"Delta/CSR merging makes the answer depend on when rebuilds happen; only a refinement proof rules out a lost or resurrected edge.","anchors":["crates/formualizer-eval/src/engine/delta_edges.rs: DeltaEdgeSlab, CsrMutableEdges","crates/formualizer-eval/src/engine/csr_edges.rs: CsrEdges"]}
{"id":"C13","title":"Interval index answers are exact","statement":"After any sequence of insertions and removals, an overlap query returns exactly the stored intervals that intersect the query, each with exactly the values inserted and not removed; point queries agree with degenerate overlap queries; the reported size is the number of stored intervals.","quantifier":"all histories, all queries","why_tests_cant":"Depends on history; missing one interval means a stale cell.","anchors":["crates/formualizer-eval/src/engine/interval_tree.rs: insert, remove, query, point_values, bulk_build_points, len"]}
{"id":"C14","title":"Editing a cell inside a range always finds the formulas reading that range","statement":"For every registered range dependency (finite, open-ended, whole row, whole column, with or without block stripes) and every edited cell or rectangle on the same sheet, the formula is reported as affected exactly when one of its ranges overlaps the edited rectangle. After the formula's dependencies are removed it is never reported again.","quantifier":"all ranges, all rectangles, all histories of registrations and removals","why_tests_cant":"Stripe selection depends on the shape of each range (tall, wide, block, open); a missed stripe is a silently stale cell.","anchors":["crates/formualizer-eval/src/engine/graph/range_deps.rs: add_range_dependent_edges","crates/formualizer-eval/src/engine/graph/mod.rs: collect_range_dependents_for_rect, remove_dependent_edges, block_index"]}
{"id":"C15","title":"Dirty propagation reaches exactly the transitive dependents","statement":"Marking sources dirty marks exactly the formulas reachable from a source through direct, name and range dependents (plus the sources themselves if they are formulas), whatever was dirty before, and terminates on cyclic graphs; marking many sources equals marking them one after another in any order.","quantifier":"all graphs (cyclic included), all source lists, all prior dirty states","why_tests_cant":"Requires reachability on arbitrary graphs.","anchors":["crates/formualizer-eval/src/engine/graph/mod.rs: mark_dirty_many, mark_dirty, get_evaluation_vertices"]}
{"id":"C16","title":"Deferred dirty scopes lose nothing","statement":"Running a batch of markings inside (possibly nested) deferred scopes leaves the same dirty set as performing the markings immediately, and nothing is queued once the outermost scope ends.","quantifier":"all sequences of begin/mark/end with balanced scopes","why_tests_cant":"Nesting and ordering are unbounded.","anchors":["crates/formualizer-eval/src/engine/graph/mod.rs: begin_deferred_dirty, end_deferred_dirty, mark_dirty_many"]}
{"id":"C17","title":"Dirty events recorded during an evaluation survive its acknowledgement","statement":"For every interleaving of recordings, leases, extensions, acknowledgements and releases, an event recorded after a lease was taken (or last extended) is still pending after that lease is acknowledged, even if an identical event was part of the lease; an acknowledgement through a stale lease changes nothing; a released lease loses nothing.","quantifier":"all interleavings of record/lease/extend/ack/sublease/release","why_tests_cant":"It is a lost-update property over all schedules.","anchors":["crates/formualizer-eval/src/engine/graph/formula_dirty.rs: FormulaDirtyState::{record_region, record_span_region, record_whole_spans, lease, extend, ack, ack_sublease, release}"]}
{"id":"C18","title":"Incremental recalculation equals full recalculation","statement":"If the cells outside the dirty set have up-to-date values, then evaluating the dirty cells layer by layer in the scheduled order gives every cell the value a from-scratch evaluation would give; the order of evaluation inside a layer (hence parallel execution) does not matter.","quantifier":"all acyclic dependency graphs, all formula semantics that read only their dependencies, all edits, all within-layer orders","why_tests_cant":"Universal over formulas, graphs and schedules.","anchors":["crates/formualizer-eval/src/engine/eval.rs: evaluate_all","crates/formualizer-eval/src/engine/scheduler.rs","crates/formualizer-eval/src/engine/graph/mod.rs: mark_dirty_many"]}
{"id":"C19","title":"Change-log stays aligned and bounded","statement":"After any sequence of recordings, compound groups, truncations, drains and cap changes, events, metadata, sequence numbers and group tags stay aligned; sequence numbers are strictly increasing; the number of retained events never exceeds the configured cap and the retained ones are the most recent.","quantifier":"all operation histories and caps","why_tests_cant":"History property with eviction.","anchors":["crates/formualizer-eval/src/engine/graph/editor/change_log.rs: ChangeLog"]}
{"id":"C20","title":"Undo reverts and redo reapplies the last action","statement":"Undoing the last recorded action restores the cell contents to what they were before it; redoing restores the contents after it; undoing all actions restores the initial sheet.","quantifier":"all edit histories made of single and grouped edits","why_tests_cant":"All histories and all groupings.","anchors":["crates/formualizer-eval/src/engine/graph/editor/undo_engine.rs: UndoEngine::undo, redo, apply_inverse","crates/formualizer-eval/src/engine/graph/editor/change_log.rs: last_group_indices"]}
{"id":"C21","title":"References follow their cells when rows or columns are inserted","statement":"After inserting rows or columns, every adjusted cell reference points to the new position of the cell it pointed to before; every finite range covers exactly the new positions of the cells it covered plus the inserted gap if the insertion point is inside it; references to other sheets are unchanged; anchors ($) are unchanged.","quantifier":"all references, insertion points and counts","why_tests_cant":"Universal over positions and counts with boundary cases at the insertion point.","anchors":["crates/formualizer-eval/src/engine/graph/editor/reference_adjuster.rs: adjust_reference, adjust_cell_ref_with_policy"]}
{"id":"C22","title":"References to deleted rows or columns become errors, others follow their cells","statement":"After deleting rows or columns, a cell reference becomes an error exactly when its cell was deleted and otherwise points to the moved cell; a finite range becomes an error exactly when all its rows (columns) were deleted, and otherwise covers exactly the surviving cells.","quantifier":"all references, start positions and counts","why_tests_cant":"Boundary cases of partial overlap.","anchors":["crates/formualizer-eval/src/engine/graph/editor/reference_adjuster.rs: adjust_reference, adjust_cell_ref_with_policy"]}
{"id":"C23","title":"Insert followed by deleting the inserted rows is the identity on formulas","statement":"Inserting rows (columns) and then deleting exactly those rows (columns) returns every formula to its original references, for every formula tree.","quantifier":"all formula trees, positions, counts","why_tests_cant":"Structural recursion over arbitrary formulas.","anchors":["crates/formualizer-eval/src/engine/graph/editor/reference_adjuster.rs: adjust_ast_if_changed"]}
{"id":"C24","title":"Printing a formula and parsing it back preserves its meaning","statement":"For every formula tree produced by the parser, the canonical text parses back to a tree with the same meaning (same operators applied to the same operands in the same grouping).","quantifier":"all formula trees","why_tests_cant":"Parenthesisation depends on every combination of parent/child operator.","anchors":["crates/formualizer-parse/src/pretty.rs: pretty_print_node, child_needs_parens, unary_operand_needs_parens","crates/formualizer-parse/src/parser.rs: parse_bp, parse_prefix, parse_primary"]}
{"id":"C25","title":"Tokens tile the formula text","statement":"Whenever tokenization succeeds, the token spans are in order, non-overlapping, lie inside the text, and every byte of the formula after '=' belongs to exactly one token, so rendering the tokens reproduces the text.","quantifier":"all input strings","why_tests_cant":"All strings.","anchors":["crates/formualizer-parse/src/tokenizer.rs: SpanTokenizer::parse_with_recovery and its parse_* methods"]}
{"id":"C26","title":"Brackets in an accepted formula are balanced","statement":"A formula is tokenized successfully only if its opening and closing tokens form a properly nested sequence with matching kinds.","quantifier":"all input strings","why_tests_cant":"All strings.","anchors":["crates/formualizer-parse/src/tokenizer.rs: parse_opener, parse_closer"]}
{"id":"C27","title":"Spill ownership is consistent and exclusive","statement":"After any sequence of spill plans, commits and clears, a cell is owned by an anchor exactly when it is in that anchor's recorded region, so no cell is owned by two anchors; the per-sheet index agrees with the ownership map; a plan is refused when a target cell is owned by another anchor, holds another formula or a non-empty value.","quantifier":"all histories of spill operations","why_tests_cant":"Three redundant maps updated separately, all histories.","anchors":["crates/formualizer-eval/src/engine/graph/mod.rs: plan_spill_region_allowing_formula_overwrite, commit_spill_region_atomic_with_fault, clear_spill_region_bulk"]}
{"id":"C28","title":"A failed spill commit leaves every cell value as it was","statement":"If a fault interrupts a spill commit after any number of writes, all cell values and the ownership maps are as before the commit.","quantifier":"all fault points, all old and new regions and values","why_tests_cant":"Every crash point.","anchors":["crates/formualizer-eval/src/engine/graph/mod.rs: commit_spill_region_atomic_with_fault"]}
{"id":"C29","title":"Reference text parses back to the same reference","statement":"For every cell, range and multi-sheet reference, with any anchors and sheet name, the text displayed for it parses back to the same reference.","quantifier":"all sheet names, coordinates, anchor flags and open/closed bounds","why_tests_cant":"Infinitely many names and coordinates; the printer and the parser are separate code.","anchors":["crates/formualizer-parse/src/parser.rs: ReferenceType::parse_excel_reference, Display for ReferenceType"]}
{"id":"C30","title":"Stored dates and times read back unchanged","statement":"A date-time value put into the engine's value store reads back as the same date and second of the day.","quantifier":"all dates and all seconds of the day","why_tests_cant":"Hundreds of billions of date-time values; the encoding goes through a serial number with special cases.","anchors":["crates/formualizer-eval/src/engine/arena/data_store.rs: store_value, retrieve_value","crates/formualizer-common/src/date_serial.rs: datetime_to_serial_for, serial_to_datetime"]}
{"id":"C31","title":"DATE and TIME normalise overflowing arguments","statement":"DATE(y,m,d) is the serial of the day d-1 days after the first of the month m-1 months after January of year y (years 0-1899 mean 1900-3799), or #NUM! if that is outside the calendar; TIME(h,m,s) is the total number of seconds modulo one day.","quantifier":"all integer arguments","why_tests_cant":"Unbounded arguments, carries and machine overflow.","anchors":["crates/formualizer-eval/src/builtins/datetime/date_time.rs: DateFn, TimeFn","crates/formualizer-eval/src/builtins/datetime/serial.rs: create_date_normalized"]}
{"id":"C32","title":"EDATE and EOMONTH move by whole months","statement":"EDATE(s,n) is the date n months from s on the same day of the month, or the month's last day if it is shorter; EOMONTH(s,n) is the last day of that month; results outside the calendar are #NUM!.","quantifier":"all valid serials, all month offsets, both date systems","why_tests_cant":"All dates times all offsets.","anchors":["crates/formualizer-eval/src/builtins/datetime/edate_eomonth.rs"]}
{"id":"C33","title":"WEEKDAY agrees with the calendar in both date systems","statement":"From 1900-03-01 on, WEEKDAY gives the true day of the week of the date, in either date system, renumbered per return type; numbers advance cyclically.","quantifier":"all dates, systems and return types","why_tests_cant":"All dates; separate arithmetic per system.","anchors":["crates/formualizer-eval/src/builtins/datetime/weekday_workday.rs: WeekdayFn, weekday_index_from_serial"]}
{"id":"C34","title":"NETWORKDAYS counts working days and WORKDAY inverts it","statement":"NETWORKDAYS(a,b) is the number of days from a to b inclusive that are neither weekend nor holiday, negative if reversed; WORKDAY(s,n) is the working day such that exactly |n| working days lie between s (excluded) and it (included), in the direction of n; WORKDAY always terminates.","quantifier":"all dates, weekend masks, holiday sets and day counts","why_tests_cant":"Loops over unbounded intervals with arbitrary holiday sets.","anchors":["crates/formualizer-eval/src/builtins/datetime/weekday_workday.rs: NetworkdaysFn, NetworkdaysIntlFn, WorkdayFn, WorkdayIntlFn"]}
{"id":"C35","title":"DATEDIF counts complete years, months and remaining days","statement":"For start <= end, Y is the number of complete years, M of complete months, YM = M - 12*Y, and MD the days left after the complete months, never negative.","quantifier":"all pairs of dates","why_tests_cant":"All pairs of dates, month-end cases.","anchors":["crates/formualizer-eval/src/builtins/datetime/weekday_workday.rs: DatedifFn"]}
{"id":"C36","title":"Sheet position index lookups are exact","statement":"After any sequence of additions, batch additions, removals and moves that name the vertex's current coordinate, looking up a row range, a column range or a rectangle returns exactly the vertices placed there, each once; the reported length is the number of placed vertices; batch and incremental building agree.","quantifier":"all histories, all ranges","why_tests_cant":"Structural edits move whatever the lookup returns; one missing vertex silently stays behind, and the three lookup paths depend on how many vertices each axis holds.","anchors":["crates/formualizer-eval/src/engine/sheet_index.rs: add_vertex, add_vertices_batch, remove_vertex, update_vertex, vertices_in_row_range, vertices_in_col_range, vertices_in_rect, len"]}
{"id": "C37", "title": "Copied formulas keep anchored parts and shift the rest", "statement": "Copying a range to a new place gives each copied formula the same tree with every reference's relative rows and columns moved by the copy offset and its $ parts unchanged; a reference pushed off the sheet becomes #REF!.", "quantifier": "all formulas, all offsets, all mixes of anchors", "why_tests_cant": "Trees, anchors and offsets combine without bound.", "anchors": ["crates/formualizer-eval/src/engine/graph/editor/reference_adjuster.rs", "crates/formualizer-eval/src/engine/graph/editor/vertex_editor.rs:copy_range"]}
{"id": "C38", "title": "Moving a block carries references to it and keeps what it computes", "statement": "After moving a range, every reference to a cell or range inside it, anywhere in any formula, points to the new place; all other references are unchanged, including those inside the moved formulas that point outside the block; no moved cell is lost even if source and destination overlap.", "quantifier": "all blocks, destinations and formulas", "why_tests_cant": "All placements of block, destination and reference.", "anchors": ["crates/formualizer-eval/src/engine/graph/editor/vertex_editor.rs:move_range", "crates/formualizer-eval/src/engine/graph/editor/reference_adjuster.rs:MoveReferenceAdjuster"]}
{"id": "C39", "title": "Named ranges follow row and column edits", "statement": "After inserting or deleting rows or columns a named range denotes the cells it denoted, where they are now; it becomes #REF! only if none of them is left.", "quantifier": "all names and edits", "why_tests_cant": "All placements of the edit relative to the name.", "anchors": ["crates/formualizer-eval/src/engine/graph/names.rs:adjust_named_definition"]}
{"id": "C40", "title": "Cell lookup follows row and column edits", "statement": "After any sequence of insertions and deletions of rows and columns, looking up a cell finds the cell that was moved there, and deleted cells are found nowhere.", "quantifier": "all sheets and all sequences of edits", "why_tests_cant": "Depends on the creation order of cells and on earlier deletions.", "anchors": ["crates/formualizer-eval/src/engine/graph/editor/vertex_editor.rs:move_vertex", "crates/formualizer-eval/src/engine/graph/mod.rs:update_cell_mapping"]}
{"id": "C41", "title": "Best-effort tokenization always yields well-ordered tokens and agrees with strict mode", "statement": "Best-effort tokenization of any formula ends, and its tokens are in order, disjoint, non-empty and inside the text. It reports no diagnostic exactly when strict tokenization accepts the text, and then both give the same tokens.", "quantifier": "all input strings", "why_tests_cant": "Error recovery has to make progress on every malformed text; a corpus of malformed inputs cannot show that none loops or overlaps.", "anchors": ["crates/formualizer-parse/src/tokenizer.rs: parse_best_effort, recover_from_error, parse_with_recovery"]}
{"id": "C42", "title": "The parser always terminates", "statement": "Parsing any token sequence, however long or deeply nested, ends with a tree or an error: every loop and every recursion of the parser consumes a token.", "quantifier": "all token sequences", "why_tests_cant": "No set of formulas shows that no token sequence makes the argument, array or operator loops spin.", "anchors": ["crates/formualizer-parse/src/parser.rs: parse_bp, parse_prefix, parse_primary, parse_function_arguments, parse_call_arguments, parse_array"]}
{"id": "C43", "title": "Reservations of array results never overlap", "statement": "Whatever was reserved and released before, two reservations in force share no cell; a reservation of a non-empty rectangle is refused exactly when one in force shares a cell with it; releasing ends exactly that reservation.", "quantifier": "all histories of reservations and releases, all rectangles; all histories of edits and evaluations of an engine", "why_tests_cant": "Two interval trees per sheet must agree with a table of locks after any history.", "anchors": ["crates/formualizer-eval/src/engine/spill.rs: RegionLockManager::reserve, release", "crates/formualizer-eval/src/engine/eval.rs: ShimSpillManager"]}
{"id": "C44", "title": "Evaluating an array formula shows the array, or #SPILL! while and only while something is in the way", "statement": "After any history of edits and evaluations, evaluating a formula to an array either shows all its values in the rectangle at the formula's cell (when that fits and every cell is free), empties what is left of the formula's former array and changes no other cell; or, when a cell is in the way, shows #SPILL! in the formula's cell, empties its former array and changes nothing else. Once nothing is in the way any more the next evaluation shows the array. A scalar result likewise replaces a former array.", "quantifier": "all histories of typed values, typed formulas, row insertions and evaluations; all array shapes and contents", "why_tests_cant": "The outcome depends on leftovers of arbitrary earlier evaluations: ownership records, reservations, overlays.", "anchors": ["crates/formualizer-eval/src/engine/eval.rs: plan_vertex_effects, plan_array_effects, plan_spill_error_effects, apply_effect, commit_spill_and_mirror"]}
{"id": "C45", "title": "Operators group as the spreadsheet's precedence table says", "statement": "A formula that is a chain of operands and infix operators, with spaces anywhere between them, parses; the tree has the same operands and operators from left to right, and groups tighter operators first, operators of one level from the left, and ^ from the right. There is exactly one such tree. A sign binds tighter than the arithmetic operators but looser than the reference operators; % and # follow their operand.", "quantifier": "all chains of any length, all operators and spacings", "why_tests_cant": "The number of chains grows exponentially with their length; the parser is a recursive loop whose binding powers interact along the whole chain.", "anchors": ["crates/formualizer-parse/src/parser.rs: parse_bp, infix binding powers"]}
{"id": "C46", "title": "Evaluating chosen cells shows in them what a full recalculation would show", "statement": "After any history of value edits, formula edits, full recalculations and evaluations of chosen cells, evaluating a set of cells shows in those cells the values that the contents of the workbook determine, whatever was dirty and whatever else is left dirty.", "quantifier": "all workbooks without computed references, all histories, all sets of requested cells, all orders inside a layer", "why_tests_cant": "Which dirty cells the demand walk must pick up depends on the whole graph and on what earlier partial evaluations left behind.", "anchors": ["crates/formualizer-eval/src/engine/eval.rs: evaluate_cells, build_demand_subgraph", "crates/formualizer-eval/src/engine/graph/mod.rs: mark_dirty_many"]}
{"id": "C47", "title": "A recalculation plan gives the same values as a full recalculation", "statement": "A recalculation plan built for a workbook and used later, after any edits, either is refused as outdated or shows the values that the contents of the workbook determine.", "quantifier": "all workbooks, all moments of building the plan, all histories between building and use", "why_tests_cant": "The plan freezes an order; whether it fits depends on every edit made in between.", "anchors": ["crates/formualizer-eval/src/engine/eval.rs: build_recalc_plan, evaluate_recalc_plan"]}
{"id": "C48", "title": "Recalculation is right in the presence of computed references", "statement": "After evaluate_all, every formula shows the value computed from the values now shown, including formulas such as INDIRECT and OFFSET whose references depend on values, and a formula that refers to itself through a computed reference shows the circular-reference error.", "quantifier": "all workbooks, all values of the arguments of computed references", "why_tests_cant": "References change while the pass is running; every pass may invalidate the order it used.", "anchors": ["crates/formualizer-eval/src/engine/eval.rs: evaluate_all, changed_virtual_dep_vertices", "crates/formualizer-eval/src/engine/virtual_deps.rs"]}
{"id": "C49", "title": "Every way of editing keeps the workbook recalculable", "statement": "After edits made through the change log, through undo and redo, or with names whose formula is volatile, a full recalculation still shows the values that the contents determine.", "quantifier": "all histories, all kinds of edits of formulas and names", "why_tests_cant": "The failure needs a particular combination of an earlier cached schedule and a later edit.", "anchors": ["crates/formualizer-eval/src/engine/eval.rs: edit_with_logger, static schedule cache", "crates/formualizer-eval/src/engine/graph/mod.rs: volatile marking"]}
{"id": "C50", "title": "Wildcard patterns mean the same in every function", "statement": "In every function that accepts wildcards (MATCH, VLOOKUP, XLOOKUP, COUNTIF, SUMIFS, SEARCH, ...), * stands for any run of characters, ? for exactly one character, ~ before one of them takes it literally, every other character stands for itself, and matching terminates.", "quantifier": "all patterns, all texts", "why_tests_cant": "Four separate matchers; the failures depend on combinations of wildcards, escapes and multi-byte characters.", "anchors": ["crates/formualizer-eval/src/builtins/lookup/lookup_utils.rs: wildcard_pattern_match, CompiledWildcardPattern", "crates/formualizer-eval/src/builtins/utils.rs: text_like", "crates/formualizer-eval/src/engine/eval.rs: compute_criteria_mask"]}
{"id": "C51", "title": "FIND and SEARCH return the first place", "statement": "FIND and SEARCH return the first position, counted in characters and not before the given start, where the text sought occurs (SEARCH: ignoring case and with wildcards), and an error exactly when there is none.", "quantifier": "all texts sought, all texts, all starts", "why_tests_cant": "First occurrence and absence are statements about all positions.", "anchors": ["crates/formualizer-eval/src/builtins/text/find_search_exact.rs"]}
{"id": "C52", "title": "Counting and summing by criteria depends only on the values shown", "statement": "COUNTIF, COUNTIFS and SUMIFS take exactly the rows whose values meet all criteria; the answer does not depend on how the values were stored, on the order of the criteria, or on how far the sheet is used.", "quantifier": "all ranges of one column, all criteria, all ways of storing the values", "why_tests_cant": "The same values can be stored in several lanes, and each combination with a criterion is handled by its own code.", "anchors": ["crates/formualizer-eval/src/engine/eval.rs: compute_criteria_mask", "crates/formualizer-eval/src/builtins/math/criteria_aggregates.rs: eval_if_family", "crates/formualizer-eval/src/builtins/utils.rs: criteria_match"]}
{"id": "C53", "title": "A criterion written with an operator is read as that comparison", "statement": "A criterion text made of one of = <> < > <= >= and a value is the comparison with that value, whatever spaces surround it.", "quantifier": "all six operators, all values", "why_tests_cant": "Operators are prefixes of one another and the value is free text.", "anchors": ["crates/formualizer-eval/src/args.rs: parse_criteria"]}
{"id": "C54", "title": "Approximate lookups find the best place", "statement": "MATCH with type 1 or -1, and VLOOKUP, HLOOKUP and LOOKUP in approximate mode, on entries in order return the place of the greatest entry not above (for -1: the least entry not below) the value sought among the entries of its kind, and #N/A exactly when there is none; entries out of order are #N/A; the same in a range and in an array.", "quantifier": "all ordered columns with blanks and other kinds of entries in between, all values sought", "why_tests_cant": "Bisection has off-by-one cases at every length and duplicate pattern.", "anchors": ["crates/formualizer-eval/src/builtins/lookup/lookup_utils.rs", "crates/formualizer-eval/src/builtins/lookup/core.rs: MATCH"]}
{"id": "C55", "title": "Exact lookups find the first equal entry by every route", "statement": "An exact lookup returns the first place holding an entry equal to the value sought, whether it looks through an array, a range, or the index kept for repeated lookups, and however often it is asked; XMATCH and XLOOKUP for the next smaller or larger number return the place of the best such number.", "quantifier": "all columns, all values sought, all numbers of earlier lookups", "why_tests_cant": "Three implementations must agree on all columns, and the switch between them depends on the history of calls.", "anchors": ["crates/formualizer-eval/src/builtins/lookup/lookup_utils.rs: find_exact_index_in_view", "crates/formualizer-eval/src/engine/lookup_index_cache.rs", "crates/formualizer-eval/src/builtins/lookup/dynamic.rs"]}
{"id": "C56", "title": "An overlay shows the last write", "statement": "After any history of writing single cells, writing batches in any of the three batch encodings, erasing cells or ranges, and clearing, reading an offset of a column overlay gives the last value written there, or nothing if it was erased or never written. The length is the number of offsets that have a value, the range test says whether one of them lies in the range, listing gives every one once in order, a slice shows the window moved to the start. The byte count kept for the memory budget is the size of what is stored.", "quantifier": "all histories of writes, all offsets and windows, all orders of hash iteration", "why_tests_cant": "A batch is cut into pieces by every later write that overlaps it; the number of ways three encodings can overlap is unbounded.", "anchors": ["crates/formualizer-eval/src/arrow_store/mod.rs: Overlay", "crates/formualizer-eval/src/arrow_store/mod.rs: OverlayFragment"]}
{"id": "C57", "title": "Typed arrays agree with the cells", "statement": "When a window of a column is handed to vectorised code as an array of numbers, booleans, texts, lower-cased texts, errors or type tags, every entry is the one the cell-by-cell reading gives: the user's value if there is one, else the computed one, else the stored one, whichever shortcut is taken.", "quantifier": "all histories of writes to both overlays, all windows, all base arrays", "why_tests_cant": "Which of seven code paths is taken depends on how the fragments of two overlays lie with respect to the window.", "anchors": ["crates/formualizer-eval/src/arrow_store/mod.rs: OverlayCascade"]}
{"id": "C58", "title": "A cell keeps its value through the life of its sheet", "statement": "Start from an empty sheet or from rows read in. After any sequence of entering values, writing formula results, inserting and deleting rows and columns, adding rows, and compacting storage, nothing has panicked and every cell reads what was last put there, moved as the row and column edits moved it; cells never written read empty.", "quantifier": "all sheets, chunk sizes and sequences of operations; all orders of hash iteration", "why_tests_cant": "Chunk boundaries depend on every earlier row edit, and each column may keep its chunks densely, sparsely or not at all; the combinations grow with the length of the history.", "anchors": ["crates/formualizer-eval/src/arrow_store/mod.rs: ArrowSheet", "crates/formualizer-eval/src/arrow_store/mod.rs: IngestBuilder", "crates/formualizer-eval/src/engine/eval.rs: mirror_value_to_overlay", "crates/formualizer-eval/src/engine/eval.rs: write_computed_overlay_value_0based"]}
{"id": "C59", "title": "The index of regions finds exactly the overlapping entries", "statement": "Regions are sets of cells (points, rectangles, whole rows, whole columns, half-open tails, whole sheets). Containment, intersection and the tests for them agree with the sets. After inserting any regions into the index, a query returns each entry that shares a cell with the queried region once, and no other entry.", "quantifier": "all lists of regions of all shapes, all queries", "why_tests_cant": "Entries are filed in a different structure for each shape, and a query visits a different choice of structures for each of its own shapes: sixty-four combinations, each for all coordinates, bucket sizes and contents.", "anchors": ["crates/formualizer-eval/src/formula_plane/region_index.rs: SheetRegionIndex", "crates/formualizer-eval/src/formula_plane/region_index.rs: AxisRange", "crates/formualizer-eval/src/formula_plane/region_index.rs: Region"]}
{"id": "C60", "title": "A change marks every formula of a span that depends on it", "statement": "Formulas that were folded into spans (one formula standing for a run or block of cells) are recomputed cell by cell: when cells change, every cell of a span whose own formula refers to a changed cell, directly or through other spans, is marked for recomputation, whatever the limit on the number of rounds. If no formula refers to whole columns and the limit was not reached, no other cell is marked. A span never contains a cell that refers to the span. A span computed once for all its cells refers to the same cells from each of them.", "quantifier": "all formulas, spans, chains of dependence between spans, and sets of changed regions", "why_tests_cant": "The marked cells are found by inverting each reference against a region of arbitrary shape and iterating over the index; relative, absolute and mixed ends of ranges each need their own inversion.", "anchors": ["crates/formualizer-eval/src/formula_plane/producer.rs: compute_dirty_closure_with_iteration_limit", "crates/formualizer-eval/src/formula_plane/producer.rs: DirtyProjectionRule", "crates/formualizer-eval/src/engine/ingest_pipeline.rs: compute_read_projections", "crates/formualizer-eval/src/formula_plane/placement.rs: span_read_summary_for_domain"]}
{"id": "C61", "title": "Inserting and deleting rows or columns leaves formula spans pointing at the same cells", "statement": "When rows or columns are inserted or deleted, a formula span (one stored formula standing for a run or block of cells) is left alone, moved, cut in two, shortened, taken apart or removed. After any sequence of such operations each cell of a remaining span has moved with the sheet, and its formula refers to exactly the cells it referred to before, at their new places: a surviving cell that was referred to still is, and no other surviving cell is; the regions recorded for recalculation are those of the rewritten formula; a removed span had all its cells deleted; a span that was not looked at had nothing to change. Spans shortened by a deletion do this only under further conditions; without them the property fails.", "quantifier": "all spans, formulas, mixes of relative and absolute references, sheets, and sequences of insertions and deletions of rows and columns", "why_tests_cant": "The same stored formula is read at every cell of the span, so a rewrite must be right for all cells at once, for every position of the operation relative to the span and to every region that is read, and again after every further operation.", "anchors": ["crates/formualizer-eval/src/formula_plane/structural_shift.rs", "crates/formualizer-eval/src/engine/eval.rs: formula_plane_structural_plan", "crates/formualizer-eval/src/formula_plane/producer.rs: SpanReadSummary"]}
{"id": "C62", "title": "What is stored is what is read back", "statement": "A value put into the engine's store (a number, text, truth value, error, date, duration, or array of these) is read back unchanged through the reference that storing returned, whatever else has been stored before or afterwards, and different values have different references. Exceptions, which the store does not keep: integers outside 28 bits (storing panics, or another integer comes back), days and times of day (date-times come back), the context and payload of errors, arrays whose rows are empty or of different lengths.", "quantifier": "all values, nested to any depth, and all histories of stores", "why_tests_cant": "References are packed words whose tag and index must never collide, and every list only grows; that a value survives every later history, at every nesting depth and every index, is a statement about all histories.", "anchors": ["crates/formualizer-eval/src/engine/arena/data_store.rs: store_value, retrieve_value", "crates/formualizer-eval/src/engine/arena/value_ref.rs", "crates/formualizer-eval/src/engine/arena/scalar.rs", "crates/formualizer-eval/src/engine/arena/string_interner.rs", "crates/formualizer-eval/src/engine/arena/error_arena.rs", "crates/formualizer-eval/src/engine/arena/array.rs"]}
{"id": "C63", "title": "A stored formula is the formula that was written", "statement": "A formula put into the engine's formula store is read back, at any later time and whatever else has been stored, as the formula that was written: same operators, functions, constants, references and absolute marks, in the same order; a sheet that existed when the formula was stored appears under the name it has at the time of reading. Equal hashes of different nodes do not mix formulas up. Exceptions, which the store does not keep: calls of the value of an expression (an error is stored), functions of 65536 arguments or more (arguments are dropped), array constants of 65536 elements or more (storing panics), the spelling of sheet names in another case, ranges up to number 4294967295.", "quantifier": "all formulas, of any size and depth, all histories of stores, sheet additions, removals and renamings, and all hash functions", "why_tests_cant": "Nodes are shared through hashes and addressed by index; that no history of stores ever makes a node read as another, even under hash collisions, is a statement about all histories and all hash functions.", "anchors": ["crates/formualizer-eval/src/engine/arena/data_store.rs: store_ast, convert_ast_node, retrieve_ast, reconstruct_ast_node", "crates/formualizer-eval/src/engine/arena/ast.rs"]}
{"id": "C64", "title": "Sheet names lead to one sheet", "statement": "After any sequence of adding, removing and renaming sheets, a name leads to a sheet exactly if the sheet has this name, up to case; two sheets never have the same name; a new sheet gets a number that no sheet had before; renaming or removing a sheet leaves the names of all others alone; and a renaming is refused exactly if another sheet has the name (or there is no such sheet).", "quantifier": "all sequences of up to 65536 sheet operations and all names", "why_tests_cant": "Stored formulas name sheets by number, so a number that is reused or a name that is left behind redirects formulas silently; this depends on the whole history of operations.", "anchors": ["crates/formualizer-eval/src/engine/sheet_registry.rs"]}
{"id": "C65", "title": "Values stay with their sheet", "statement": "After any sequence of adding, removing, renaming and copying sheets and writing values, a cell of a sheet reads as the last value written to it; renaming moves all values with the sheet, copying takes the values as they are, and an operation that is refused changes nothing. The engine keeps sheets twice (a registry that ignores case, a storage that does not) and violates this: a refused renaming exchanges the values of two sheets, a renaming that changes only the case loses the values, and writing or copying under another case goes to a sheet nobody reads.", "quantifier": "all sequences of up to 65536 sheet operations and writes, all names and values", "why_tests_cant": "Two structures must name the same sheets after every history; the disagreement shows only in particular orders of sheets and spellings of names.", "anchors": ["crates/formualizer-eval/src/engine/eval.rs: add_sheet, remove_sheet, rename_sheet, duplicate_sheet, ensure_arrow_sheet, set_cell_value", "crates/formualizer-eval/src/engine/graph/sheets.rs"]}
{"id": "C66", "title": "Formulas come back with their sheets", "statement": "When a sheet is removed, formulas on other sheets that refer to it are marked as broken and remember the name; when a sheet of this name is added, or another is renamed to it, they refer to it again and are no longer broken, unless another of their sheets is still missing. At every time each reference is shown with the present name of the sheet it was written for, and a formula is broken exactly if one of its sheets is missing; removing a sheet and adding it again leaves all formulas elsewhere as they were.", "quantifier": "all sequences of up to 65536 operations (adding, removing, renaming sheets, setting and clearing formulas), any number of formulas with any number of references", "why_tests_cant": "What happens depends on which sheets were missing together and in which order they come back; tests fix one sheet and one formula.", "anchors": ["crates/formualizer-eval/src/engine/graph/sheets.rs: remove_sheet, heal_orphaned_formulas, rename_sheet", "crates/formualizer-eval/src/engine/graph/mod.rs: rebuild_formula_dependencies"]}
{"id": "C67", "title": "Every cell of a folded span computes its own formula", "statement": "When the engine folds a block of cells whose formulas agree up to relative position and constants into one span with one stored formula and an encoded table of constants, then the cells of the span are exactly those of the block, the table gives every cell its own constants, and the formula computed at each cell is the formula that was written there. The last part fails when two constants of the stored formula are one node of the formula store.", "quantifier": "all formulas (any depth and number of arguments, all reference kinds), all blocks of cells, all constants", "why_tests_cant": "The grouping compares printed keys, so that the claim needs that no two different formulas of any size print the same; the encodings of the constants (dictionary, arithmetic in rows, columns or both) are chosen by the data.", "anchors": ["crates/formualizer-eval/src/formula_plane/placement.rs", "crates/formualizer-eval/src/formula_plane/template_canonical.rs", "crates/formualizer-eval/src/formula_plane/runtime.rs", "crates/formualizer-eval/src/interpreter.rs"]}
{"id": "C68", "title": "Spans keep their constants when rows and columns are inserted or deleted elsewhere", "statement": "After any sequence of insertions and deletions of rows and columns that move a span as a whole, every cell of the span computes the formula it had, with its references moved and its constants unchanged. The engine keeps this exactly for spans whose table of constants does not change along the moved axis and whose template is not shared with an earlier span that has other constants; otherwise the constants change silently.", "quantifier": "all spans, all formulas, all sequences of shifts of any length, interleaved with the addition and shifting of other spans", "why_tests_cant": "The failure needs constants in arithmetic progression, or two spans with formulas of one shape, together with a later insertion; tests of insertions use one span with one constant.", "anchors": ["crates/formualizer-eval/src/engine/eval.rs", "crates/formualizer-eval/src/formula_plane/runtime.rs", "crates/formualizer-eval/src/formula_plane/placement.rs"]}
{"id": "C69", "title": "Evaluating a span once per distinct input gives every cell its own value and format", "statement": "The engine may evaluate a span of formulas once per group of cells whose constants, input values and remaining distances agree, and copy the result to the other cells of the group. Every cell must then show the same value as if it had been evaluated on its own. The engine keeps this for the values if every function only looks at the cells it is given, for every order in which groups are evaluated; it does not keep it for SUMIF with a target shorter than its range, nor for the number format (hence for dates) of cells that are not the first of their group.", "quantifier": "all formulas, spans, constants, contents of the workbook, orders of the groups, and all functions that depend on their arguments only", "why_tests_cant": "Needs an induction over all formulas and a statement about all functions; the failures need equal inputs with formats, or equal inputs with distinct cells beyond the target.", "anchors": ["crates/formualizer-eval/src/formula_plane/span_eval.rs", "crates/formualizer-eval/src/formula_plane/placement.rs", "crates/formualizer-eval/src/formula_plane/template_canonical.rs", "crates/formualizer-eval/src/builtins/math/criteria_aggregates.rs"]}
{"id": "C70", "title": "SORT and SORTBY return the rows in the order of their keys", "statement": "SORT(a, i, o) returns the rows of a, each exactly as often as in a, in the ascending (o >= 0) or descending order of their i-th cells, where rows with equal keys keep their order; SORTBY the same for one or several arrays of keys with their own orders, the first array deciding first; sorting by column the same for columns. The engine does so for keys that are all numbers (not closer than 1e-12) or all plain texts; it does not for columns that mix numbers and texts, for texts of which some read as numbers, for numbers closer than 1e-12, and it sorts empty cells as zero.", "quantifier": "all arrays, keys, orders, and all stable sorting procedures that sort what is ordered", "why_tests_cant": "Arrays are unbounded; the failures need particular mixtures of keys, whose result depends on the sorting procedure.", "anchors": ["crates/formualizer-eval/src/builtins/lookup/dynamic.rs", "crates/formualizer-eval/src/builtins/lookup/lookup_utils.rs"]}
{"id": "C71", "title": "FILTER keeps the marked lines and UNIQUE the distinct ones, in their order", "statement": "FILTER(a, marks) returns exactly the rows (or columns) of a whose mark is true, in their order. UNIQUE(a) returns every distinct row (or column) once, in the order of first occurrence; with exactly_once those that occur once. The engine does so for rows; a row of marks never filters columns, errors among marks count as false, and the distinct columns are returned as rows.", "quantifier": "all arrays and marks", "why_tests_cant": "Arrays are unbounded, and the statement is about order, multiplicity and completeness at once.", "anchors": ["crates/formualizer-eval/src/builtins/lookup/dynamic.rs", "crates/formualizer-common/src/value.rs"]}
{"id": "C72", "title": "Functions that reshape arrays move every cell to its place", "statement": "TRANSPOSE exchanges rows and columns and undoes itself. TAKE and DROP return the first or last lines and the rest, and together make up the array. CHOOSECOLS and CHOOSEROWS return the chosen lines in the order of the choice, negative numbers counting from the end, and #VALUE! if one is out of bounds. VSTACK and HSTACK put arrays below and beside each other. TOCOL and TOROW list the cells row by row or column by column without the ignored ones. SEQUENCE puts start + (r m + c) step in row r and column c.", "quantifier": "all rectangular arrays, counts and choices", "why_tests_cant": "Arrays and counts are unbounded.", "anchors": ["crates/formualizer-eval/src/builtins/lookup/dynamic.rs", "crates/formualizer-eval/src/builtins/lookup/choose.rs", "crates/formualizer-eval/src/builtins/lookup/array_shape.rs", "crates/formualizer-eval/src/builtins/lookup/stack.rs"]}
{"id": "C73", "title": "Functions that count characters cut and find at the right places", "statement": "LEFT, RIGHT and MID return the characters they name, LEFT(s,n)&RIGHT(s,LEN(s)-n) is s, REPLACE exchanges the characters it names, and negative counts and places below 1 are #VALUE!. FIND(x,s,n) is the first place from n on where x stands, #VALUE! if there is none, and MID(s,FIND(x,s),LEN(x)) is x. SEARCH is the same for patterns with * and ? and without regard to case. TRIM returns the words with one space between them, and TRIM of that changes nothing. The engine does so except that REPLACE behind the text inserts nothing, FIND and SEARCH of the empty text return 1 wherever they begin, SEARCH knows no ~ and only ASCII letters, and TRIM replaces line breaks and tabs too.", "quantifier": "all texts, patterns, places and counts", "why_tests_cant": "Texts, patterns and places are unbounded; firstness is a statement about all earlier places.", "anchors": ["crates/formualizer-eval/src/builtins/text/len_left_right.rs", "crates/formualizer-eval/src/builtins/text/mid_sub_replace.rs", "crates/formualizer-eval/src/builtins/text/find_search_exact.rs", "crates/formualizer-eval/src/builtins/text/trim_case_concat.rs"]}
{"id": "C74", "title": "Functions that cut at a delimiter agree on the parts of a text", "statement": "For a text s and a delimiter d there is one list of parts, cut from left to right without overlaps, and s is the parts with d between them. SUBSTITUTE(s,d,x) is the parts with x between them, SUBSTITUTE(s,d,x,k) replaces the k-th d only, LEN(s)-LEN(SUBSTITUTE(s,d,\"\")) is LEN(d) times the number of places. TEXTBEFORE and TEXTAFTER with k return the parts before and behind the k-th d, from the end if k is negative, #N/A if there are fewer. TEXTSPLIT(s,d) returns the parts, TEXTJOIN(d,FALSE,parts) is s, and TEXTSPLIT of joined texts returns them if none contains the delimiter. The engine does so for one delimiter; empty rows are lost, and splitting without regard to case panics when making letters small changes their length in bytes.", "quantifier": "all texts, delimiters, counts and lists of texts", "why_tests_cant": "Texts are unbounded, delimiters may overlap themselves, and the failures need particular characters.", "anchors": ["crates/formualizer-eval/src/builtins/text/mid_sub_replace.rs", "crates/formualizer-eval/src/builtins/text/extended.rs", "crates/formualizer-eval/src/builtins/text/array_text.rs", "crates/formualizer-eval/src/builtins/text/trim_case_concat.rs"]}
{"id": "C75", "title": "Operators work cell by cell on arrays", "statement": "For arrays a and b whose heights and widths are equal or 1, a op b is the array whose cell (i,j) is a(i,j) op b(i,j), a side of length 1 being repeated; for a single value the same. This holds for + - * / ^ and the comparisons, and for the signs and % of one array. A single cell is the result of the operation on the numbers of its operands; a text or other value that is no number makes it #VALUE!, an error among the operands is passed on, the left one first, and a result that is not finite is #NUM!. The engine does so except that & on an array gives the text of its inner form, & turns errors into text, arrays that do not fit are one #VALUE! and 0^0 is 1.", "quantifier": "all operands, arrays of every size and ways to read texts as numbers", "why_tests_cant": "Sizes of arrays and the pairs of kinds of operands are unbounded.", "anchors": ["crates/formualizer-eval/src/interpreter.rs", "crates/formualizer-eval/src/broadcast.rs", "crates/formualizer-eval/src/coercion.rs"]}
{"id": "C76", "title": "The comparison operators belong together", "statement": "For two values exactly one of <, = and > holds, <> is the contrary of =, <= and >= those of > and <, a<b is the same as b>a, and < and = are transitive, so that sorting and searching by them makes sense. The engine does so for two numbers and for two texts (without regard to case). Between numbers and texts it reads texts as numbers where that is possible and writes numbers as texts where not: 1=\"1\" and TRUE=1 hold, < goes round in a circle (9<10, 10<\"1a\", \"1a\"<9), = is not transitive, and for texts that are read as a number that is none all of <, =, > fail.", "quantifier": "all pairs and triples of values and all ways to read and write numbers", "why_tests_cant": "Transitivity concerns all triples of values.", "anchors": ["crates/formualizer-eval/src/interpreter.rs", "crates/formualizer-eval/src/locale.rs"]}
{"id": "C77", "title": "Open ranges, @ and : name the right cells", "statement": "A range like A:A, 2:5 or A3:B is read as a rectangle inside the range that contains all its used cells. @ before a column, open or not, gives the cell in the row of the formula, before a row that in its column, #VALUE! outside. a:b between references on a sheet is the smallest rectangle that contains both. The engine does so except that a range with both ends open may miss used cells, @A:A is #VALUE! below the last used row and the value of A1 everywhere if only row 1 is used, and : is wrong for ranges whose corners are written the other way round.", "quantifier": "all ranges, used cells and places of the formula", "why_tests_cant": "Rectangles, used cells and places are unbounded.", "anchors": ["crates/formualizer-eval/src/engine/used_extent.rs", "crates/formualizer-eval/src/interpreter.rs", "crates/formualizer-eval/src/reference.rs"]}
{"id": "C78", "title": "A formula depends on what it declares", "statement": "The dependencies that are collected from a formula are the references and names that it mentions outside of the names bound by LET and LAMBDA, in order. If two workbooks agree on the values of the collected references and names, the formula has the same value in both; so it is enough to recalculate it when one of these changes. Every formula has a value after finitely many steps. The engine does so except where a local name stands in an argument that a function reads as a range, as in LET(x,1,SUM(x)): there the name of the workbook is read, which is not collected.", "quantifier": "all formulas, workbooks, nested scopes and builtin functions", "why_tests_cant": "Formulas nest without bound, and independence concerns all pairs of workbooks.", "anchors": ["crates/formualizer-eval/src/engine/refs.rs", "crates/formualizer-eval/src/engine/ingest_pipeline.rs", "crates/formualizer-eval/src/builtins/lambda.rs", "crates/formualizer-eval/src/interpreter.rs", "crates/formualizer-eval/src/traits.rs"]}
{"id": "C79", "title": "Local names stand for their values", "statement": "LET(x,e,body) has the value of body with the value of e in place of every x that no inner LET or LAMBDA binds again, names being compared without regard to case. LET with several pairs is the same as nested LETs. A call of a local function has the value of its body with the arguments in place of the parameters, the other names meaning what they meant where the function was written. Parameters must be different names, else the function is #VALUE!. The engine does so except where a local name stands in an argument that a function reads as a range: LET(r,A1:A3,SUM(r)) is #NAME?, or the sum of a name r of the workbook.", "quantifier": "all formulas, bindings, values and builtin functions", "why_tests_cant": "Bodies and scopes nest without bound.", "anchors": ["crates/formualizer-eval/src/builtins/lambda.rs", "crates/formualizer-eval/src/interpreter.rs", "crates/formualizer-eval/src/traits.rs"]}
{"id": "C80", "title": "A loop that is not entered computes like any other cells; #CIRC! marks cycles", "statement": "With runtime detection of cycles and the policy Error, the cells of a static loop end in one of two ways: all have the values of their formulas, and there are no other values that satisfy them; or a cycle of reads was recorded, and its cells are #CIRC!. The evaluation always ends, after at most two passes more than there are cells, and the defensive limit on settling passes is never reached by formulas that give no arrays. Cells whose formulas read only cells before them need one pass. The analysis finds exactly the cells on cycles of the recorded reads. The engine violates what a user would expect in two ways: a cycle is also recorded from values of the past or empty cells, so cells may stay #CIRC! although the formulas have a solution without any cycle, depending on the values before; and a cell that reads other cells once it sees #CIRC! may keep a value that its formula does not give.", "quantifier": "all formulas, numbers of cells, values before and excluded cells", "why_tests_cant": "Which cells a formula reads depends on the values during the passes; units have any number of cells and passes.", "anchors": ["crates/formualizer-eval/src/engine/eval.rs: evaluate_scc_unit", "crates/formualizer-eval/src/engine/live_graph.rs", "crates/formualizer-eval/src/engine/live_edges.rs"]}
{"id": "C81", "title": "Iterative calculation stops where the values stop moving", "statement": "With the policy Iterate, the evaluation of a loop ends. If it ends as converged, the last pass was over all cells and moved no value by max_change or more, and changed no value that is not a number; if the last pass moved nothing at all the values satisfy the formulas. With a limit of one iteration there is one pass. Cells whose values can be found without the cycle have these values once there were as many passes as cells. The comparison is symmetric, grows with max_change, and an unmoved number counts as converged exactly if max_change is positive.", "quantifier": "all formulas, numbers of cells, limits, values before and values of max_change", "why_tests_cant": "Sequences of passes over formulas that change what they read have no bound.", "anchors": ["crates/formualizer-eval/src/engine/eval.rs: evaluate_scc_unit", "crates/formualizer-eval/src/engine/convergence.rs: values_converged"]}
{"id": "C82", "title": "Numbers written in other bases or as Roman numerals read back", "statement": "What DEC2BIN, DEC2OCT and DEC2HEX write, with or without places, BIN2DEC, OCT2DEC and HEX2DEC read as the same number; a text is read as its place value, in ten digits as two's complement; a number can be written exactly if it is in the range of ten digits and the places suffice, and has then as many characters as places. Every text that is read can be written again, not longer. BIN2HEX and its kind are the two conversions one after the other. DECIMAL reads what BASE writes, in all bases from 2 to 36 and with any minimal length. ARABIC gives the sum of the digits of a numeral, negative where a larger one follows, and reads what ROMAN writes in the classic form from 0 to 3999. The other forms of ROMAN violate this: ROMAN(4,1) and ROMAN(9,1) are both IV.", "quantifier": "all numbers, texts, bases and places", "why_tests_cant": "Numbers, texts and lengths are unbounded; the ends of the ranges are 40 bits apart.", "anchors": ["crates/formualizer-eval/src/builtins/engineering.rs: Bin2DecFn, Dec2BinFn and the other ten", "crates/formualizer-eval/src/builtins/math/numeric.rs: BaseFn, DecimalFn, RomanFn, ArabicFn"]}
{"id": "C83", "title": "Hidden rows", "statement": "After any history of hiding and showing rows (one or many, by hand or by a filter), inserting rows, deleting rows and removing sheets, is_row_hidden tells exactly which rows are hidden: an inserted row is visible and the rows below keep their state under their new numbers, a deleted row takes its state with it. The mask that SUBTOTAL and AGGREGATE get for a range is never out of date, also if it was kept from before. The engine keeps state for a sheet exactly while one of its rows is hidden. Undo of an action that hides and shows rows restores what was hidden before, redo what was hidden after. Violated: undo of an action that inserts rows leaves the shifted rows hidden, and the version number of a sheet's hidden rows repeats for different rows.", "quantifier": "all histories, sheets, rows, ranges and actions", "why_tests_cant": "Histories and rows are unbounded; rows are kept as bits in words, and a stale mask shows only after particular sequences.", "anchors": ["crates/formualizer-eval/src/engine/row_visibility.rs", "crates/formualizer-eval/src/engine/eval.rs: set_row_hidden, set_rows_hidden, row_visibility_mask, insert_rows, delete_rows, apply_inverse of SetRowVisibility"]}
{"id": "C84", "title": "SUM, COUNT, AVERAGE, MIN, MAX, COUNTA, SUBTOTAL and AGGREGATE", "statement": "SUM, COUNT, AVERAGE, MIN, MAX and COUNTA of ranges depend only on the cells, not on how the sheet stores them in chunks and columns: the sum, count, quotient, extremes of their numbers. For ranges without errors SUBTOTAL(n, ..) is the function that n names; SUBTOTAL(3, ..) is COUNTA always. SUBTOTAL(100+n, ..) is SUBTOTAL(n, ..) of the ranges without the rows that are hidden by hand or by a filter. AGGREGATE with option 0 and 1 is SUBTOTAL(n) and SUBTOTAL(100+n), with 2 and 3 the same with all errors removed, and then gives no error of an argument. The order of cells and arguments does not matter without errors; sums and counts of parts add up, the average times the count is the sum and lies between the extremes, n VARP = (n-1) VARS and shifting all numbers leaves the variance. Violated: the error that SUM gives depends on how the cells are stored and is not the one of SUBTOTAL; SUBTOTAL(2, ..) gives errors where COUNT counts; COUNTBLANK leaves out the rows after the stored ones.", "quantifier": "all arguments, sizes, chunks, masks and orders of cells", "why_tests_cant": "Sizes, chunk boundaries and combinations of arguments are unbounded.", "anchors": ["crates/formualizer-eval/src/builtins/math/aggregate.rs: SumFn, CountFn, AverageFn, SubtotalFn, AggregateFn, AggregateCollector", "crates/formualizer-eval/src/builtins/math/reduction.rs: MinFn, MaxFn", "crates/formualizer-eval/src/builtins/math/criteria_aggregates.rs: CountAFn, CountBlankFn", "crates/formualizer-eval/src/engine/range_view.rs: numbers_slices, errors_slices"]}
{"id": "C85", "title": "Caches by data snapshot", "statement": "The used rows of columns and used columns of rows, by which open ranges such as A:A are read, are always those of the cells that are not empty or have a formula, and an index for exact lookups always has the values of its range as they are now. After every edit nothing of the past is used. An index is used from the fourth question for the same range after an edit on, if the range has at least 64 cells, no error and no volatile formula and there is room. The bytes reported for indexes are those of the indexes kept and at most the limit.", "quantifier": "all workbooks, all histories of edits, writes by evaluation and questions in any order, all ranges, sizes and limits", "why_tests_cant": "An answer is out of date only after particular orders of questions and writes; the tests for these caches put an edit between all questions.", "anchors": ["crates/formualizer-eval/src/engine/eval.rs:3579-3680", "crates/formualizer-eval/src/engine/eval.rs:14929-14994", "crates/formualizer-eval/src/engine/eval.rs:22988-23137", "crates/formualizer-eval/src/engine/eval.rs:23898-23973", "crates/formualizer-eval/src/engine/lookup_index_cache.rs:99-392"]}
{"id": "C86", "title": "Order statistics", "statement": "SMALL and LARGE give the number with fewer than k numbers before it in order, counted from either end, and #NUM! exactly when there is no such place. PERCENTILE.INC goes linearly from each number to the next in order, from the smallest to the largest; PERCENTILE.EXC, QUARTILE and MEDIAN are percentiles, and half of the numbers are on either side of MEDIAN. RANK.EQ is one more than the number of values ahead, RANK.AVG the middle of the places taken, and both average ranks add up to n + 1. MODE.MULT gives the numbers that occur most often in ascending order and MODE.SNGL the first of them. TRIMMEAN is the mean without as many of the smallest as of the largest. PERCENTILE takes the result of PERCENTRANK back to the number. FREQUENCY counts every value once, in its bin. None of these depends on the order of the cells or on how selection rearranges them, and all end for every input.", "quantifier": "all lists of numbers, all places, percentages, targets, bins and orders, all selection algorithms that keep the contract of the standard library", "why_tests_cant": "Selection rearranges the numbers differently for different inputs, and ties, even and odd lengths and places between two numbers multiply; tests compare a few lists with values from a spreadsheet.", "anchors": ["crates/formualizer-eval/src/builtins/stats/mod.rs:47-196", "crates/formualizer-eval/src/builtins/stats/mod.rs:289-430", "crates/formualizer-eval/src/builtins/stats/mod.rs:517-720", "crates/formualizer-eval/src/builtins/stats/mod.rs:1153-1294", "crates/formualizer-eval/src/builtins/stats/mod.rs:1579-1730", "crates/formualizer-eval/src/builtins/stats/mod.rs:2470-2507", "crates/formualizer-eval/src/builtins/stats/mod.rs:7429-7740", "crates/formualizer-eval/src/coercion.rs:10-36"]}
{"id": "C87", "title": "Loans, annuities and depreciation", "statement": "FV is what is left of a loan after paying period by period. The payment from PMT, the loan from PV and the number of periods from NPER lead to that future value, and where NPER is #NUM! no number of periods does. IPMT is the interest on the balance of the period and PPMT the rest of the payment, and the principal parts add up to the loan. CUMIPMT and CUMPRINC are the sums of IPMT and PPMT. NPV discounts each value once more than the one before and agrees with PV for equal payments. EFFECT and NOMINAL undo each other, RRI and PDURATION give the rate and the time of growth. SLN, SYD, DB and DDB divide the loss of value over the life without negative amounts, and DDB never goes below the salvage value. DOLLARDE and DOLLARFR undo each other.", "quantifier": "all rates, whole and broken numbers of periods, payments, values, both types of payment, all lives, months and factors, all denominators", "why_tests_cant": "The laws relate functions to each other over all real arguments and sum over any number of periods; tests compare single results with a spreadsheet or with what the code gave.", "anchors": ["crates/formualizer-eval/src/builtins/financial/tvm.rs:101-138", "crates/formualizer-eval/src/builtins/financial/tvm.rs:207-235", "crates/formualizer-eval/src/builtins/financial/tvm.rs:304-332", "crates/formualizer-eval/src/builtins/financial/tvm.rs:398-520", "crates/formualizer-eval/src/builtins/financial/tvm.rs:587-627", "crates/formualizer-eval/src/builtins/financial/tvm.rs:838-891", "crates/formualizer-eval/src/builtins/financial/tvm.rs:960-1014", "crates/formualizer-eval/src/builtins/financial/tvm.rs:1076-1173", "crates/formualizer-eval/src/builtins/financial/tvm.rs:1672-1725", "crates/formualizer-eval/src/builtins/financial/tvm.rs:1791-1845", "crates/formualizer-eval/src/builtins/financial/tvm.rs:2300-2423", "crates/formualizer-eval/src/builtins/financial/tvm.rs:2459-2659", "crates/formualizer-eval/src/builtins/financial/depreciation.rs:83-456"]}
{"id": "C88", "title": "Rates of return", "statement": "IRR gives a rate at which the flows are worth nothing, up to its tolerance, for every guess above -100%, and gives one whenever the value has different signs at -99% and 1000%. The derivatives used are derivatives, and the bracket of the second method always holds a root and never grows. Payments followed by returns have at most one internal rate. RATE and XIRR give rates at which FV and XNPV meet their targets up to the tolerance. XNPV with dates a year apart is NPV, and depends on the days between the dates only. What is paid grows at the rate MIRR to what comes back.", "quantifier": "all lists of flows, dates and guesses, all continuous functions for the bracket, any number of rounds", "why_tests_cant": "The iterations take different branches for different flows and the bracket must hold after each; tests try a few lists of flows that converge at once.", "anchors": ["crates/formualizer-eval/src/builtins/financial/tvm.rs:697-769", "crates/formualizer-eval/src/builtins/financial/tvm.rs:1176-1346", "crates/formualizer-eval/src/builtins/financial/tvm.rs:1406-1467", "crates/formualizer-eval/src/builtins/financial/tvm.rs:1531-1606", "crates/formualizer-eval/src/builtins/financial/tvm.rs:1908-2045", "crates/formualizer-eval/src/builtins/financial/tvm.rs:2105-2240"]}
{"id": "C89", "title": "Rounding, division and counting", "statement": "ROUND gives the nearest multiple of the last digit, away from 0 between two, and there is only one; ROUNDDOWN, TRUNC and ROUNDUP the next one towards or away from 0. MOD and INT divide with a rest of the sign of the divisor, QUOTIENT with one of the sign of the dividend. CEILING and FLOOR and their variants give the next multiple above and below, with a mode away from and towards 0, MROUND the nearest. EVEN and ODD give the next even or odd number away from 0. GCD and LCM give the greatest common divisor and least common multiple of all arguments. FACT, FACTDOUBLE, COMBIN, COMBINA, PERMUT and MULTINOMIAL give the numbers of combinatorics.", "quantifier": "all numbers, digits, multiples and lists of arguments", "why_tests_cant": "Signs, ties and sizes multiply; overflow happens far from the numbers in the tests, and the tests compare a few values.", "anchors": ["crates/formualizer-eval/src/builtins/math/numeric.rs:214-226", "crates/formualizer-eval/src/builtins/math/numeric.rs:284-557", "crates/formualizer-eval/src/builtins/math/numeric.rs:612-646", "crates/formualizer-eval/src/builtins/math/numeric.rs:708-1058", "crates/formualizer-eval/src/builtins/math/numeric.rs:1591-1616", "crates/formualizer-eval/src/builtins/math/numeric.rs:1671-1769", "crates/formualizer-eval/src/builtins/math/numeric.rs:1901-1950", "crates/formualizer-eval/src/builtins/math/numeric.rs:2239-2271", "crates/formualizer-eval/src/builtins/math/combinatorics.rs:72-105", "crates/formualizer-eval/src/builtins/math/combinatorics.rs:175-323", "crates/formualizer-eval/src/builtins/math/combinatorics.rs:390-434", "crates/formualizer-eval/src/builtins/math/combinatorics.rs:501-541", "crates/formualizer-eval/src/builtins/math/combinatorics.rs:590-703"]}
{"id": "C90", "title": "Formulas kept aside while loading come back", "statement": "While a sheet is loaded its formulas are written as frames of bytes to memory or, above a limit, to a file, and read back later. Every record accepted is read back as it was, in order, whichever store holds it; a frame cut short is reported as such and never read as something else; two different records have different frames. The bytes counted are those held and stay within the limits of sheet, workbook and memory, and everything within the limits is accepted. On reading back each formula is handed on once, in the order of the source; a shared formula is expanded from the last anchor of its index before it, or else from the first one after it.", "quantifier": "all lists of records with 32-bit coordinates, 64-bit numbers and texts below 2^42 bytes, all limits, all routes, all functions expanding a template", "why_tests_cant": "The layout depends on the length of every number and text, the length prefix on its own length, and the order of anchors and descendants is arbitrary; tests take a few records", "anchors": ["crates/formualizer-workbook/src/backends/calamine/formula_replay.rs:63-65", "crates/formualizer-workbook/src/backends/calamine/formula_replay.rs:304-348", "crates/formualizer-workbook/src/backends/calamine/formula_replay.rs:395-483", "crates/formualizer-workbook/src/backends/calamine/formula_replay.rs:507-1099", "crates/formualizer-workbook/src/backends/calamine/formula_replay.rs:1149-1233"]}
{"id": "C91", "title": "Shared formulas taken as one family", "statement": "While a sheet is loaded, a shared formula may be taken as one family over its declared rectangle instead of cell by cell. A family taken as a whole rectangle owns exactly the cells of the rectangle: each has one record and it belongs to the family, the first is the anchor. A family taken in parts owns exactly the cells of its fragments and single cells, each in one part only; every other cell of the rectangle is listed as an exclusion, a hole has no record at all and an ordinary exclusion an ordinary formula. Cutting cells out of a rectangle gives disjoint parts that cover exactly the rest, and given increasing cells of the rectangle and the right count fails only for too many fragments. Finishing never panics.", "quantifier": "all lists of records with any coordinates, ranges, texts and families, all limits of bytes, exclusions and fragments; all rectangles and exclusions", "why_tests_cant": "Whether a cell is counted right depends on the order of all records of the sheet, on overlapping ranges and on the limits; the tests look at some small sheets", "anchors": ["crates/formualizer-workbook/src/backends/calamine/compressed_evidence.rs:85-296", "crates/formualizer-workbook/src/backends/calamine/compressed_evidence.rs:298-354", "crates/formualizer-workbook/src/backends/calamine/compressed_evidence.rs:356-540", "crates/formualizer-workbook/src/backends/calamine/compressed_evidence.rs:555-680", "crates/formualizer-workbook/src/backends/calamine/compressed_evidence.rs:681-855"]}
{"id": "C92", "title": "Structured references are read as written and read back as printed", "statement": "A table specifier written in any of the forms of the language - a column, a range of columns, a special item in any case, `@`, `@Column`, `@[Column]`, or bracketed items with commas, with gaps between the parts and apostrophes before any characters - is read as exactly what it denotes, so no text denotes two things and every column whose name has no white space at its ends can be named. What is accepted is one bracketed text with paired brackets and nothing behind it. Printing a reference and reading the text gives the same reference.", "quantifier": "all names of any characters and length, all numbers of items, all placements of gaps and apostrophes, all spellings of the special items; all specifiers printed", "why_tests_cant": "The tests read some dozens of references; whether a name with brackets, colons or apostrophes survives depends on four scanners that each skip escapes and count brackets on their own", "anchors": ["crates/formualizer-parse/src/structured_ref.rs:25-39", "crates/formualizer-parse/src/structured_ref.rs:78-124", "crates/formualizer-parse/src/structured_ref.rs:128-268", "crates/formualizer-parse/src/structured_ref.rs:306-377", "crates/formualizer-parse/src/structured_ref.rs:384-554", "crates/formualizer-parse/src/parser.rs:292-351", "crates/formualizer-parse/src/parser.rs:1091-1109", "crates/formualizer-parse/src/parser.rs:1361-1399"]}
{"id": "C93", "title": "A reference to a table reads the rows and columns it names", "statement": "A table's name, in any case unless names are case sensitive, leads to that table and no other, whatever tables were defined, updated and deleted before. A formula that refers to the headers, the data, the totals, all, a column or a range of columns of a table reads exactly the cells of those rows and columns; header, data and totals share no cells and make up the table; an unknown column is #REF!. A column of the current row is the cell in the formula's row and that column of the smallest table around the formula. The inspection of a formula and the preparation of a target name the same cells, and inserting rows moves the table with its cells.", "quantifier": "all tables of any size and number with or without header and totals, all specifiers and cells, all sequences of definitions, updates and deletions, all orders of the map of tables", "why_tests_cant": "The same selection is computed in four places with different ways of counting, comparing names and clamping; tests try a few tables", "anchors": ["crates/formualizer-eval/src/engine/graph/tables.rs:12-189", "crates/formualizer-eval/src/engine/graph/mod.rs:2383-2530", "crates/formualizer-eval/src/engine/ingest_pipeline.rs:579-672", "crates/formualizer-eval/src/engine/eval.rs:9727-9806", "crates/formualizer-eval/src/engine/eval.rs:24305-24421", "crates/formualizer-eval/src/engine/inspect.rs:1443-1588"]}
{"id": "C94", "title": "A sheet saved as CSV is the sheet that is opened again", "statement": "A cell of a CSV workbook holds what the last write, clear or delete left in it, and every cell with a value is inside the bounds of the sheet. A saved rectangle holds one record per row and one field per column, the field being the printed value and empty for a blank cell; it can be saved unless it is turned around, begins before row or column one or holds a value that cannot be printed, and a save that fails leaves the file alone. Integers, truth values, fractions and texts come back when the file is opened, blanks stay blank, and bounds are kept. With type inference off, saving what was opened gives the same records, filled up to the same length.", "quantifier": "for all sequences of writes, clears and deletes, all sheets, all values, all files of records of any lengths, with and without headers", "why_tests_cant": "the texts that are taken for numbers or truth values are an infinite set, and the sheets of all sizes and shapes cannot be enumerated", "anchors": ["crates/formualizer-workbook/src/backends/csv.rs:237-289", "crates/formualizer-workbook/src/backends/csv.rs:291-383", "crates/formualizer-workbook/src/backends/csv.rs:506-604", "crates/formualizer-workbook/src/backends/csv.rs:731-809", "crates/formualizer-workbook/src/backends/csv.rs:837-942"]}
{"id": "C95", "title": "An evaluation never uses more than its budget", "statement": "Whatever is reserved, released, charged and refused during a request, the retained memory, the scratch memory and the work in use are within their limits; a reservation is granted exactly when what is then in use is within every limit that applies; a refusal changes no amount and is the one reported; the reported peaks are the largest amounts ever in use; going back to a checkpoint releases what was reserved since; a window of time is granted exactly when it ends before the deadline. A change of the graph is admitted exactly when the vertices, edges, cells and bytes are within their limits. The shares of an envelope make up the whole and a request of one share is granted when its share and the whole suffice. Deprecated settings fill only what is not set.", "quantifier": "for all budgets, all amounts of the machine and all sequences of operations", "why_tests_cant": "sequences of reservations and releases are unbounded, and the sums that overflow the machine are not met in tests", "anchors": ["crates/formualizer-eval/src/engine/resource_ledger.rs:58-155", "crates/formualizer-eval/src/engine/resource_ledger.rs:228-271", "crates/formualizer-eval/src/engine/resource_ledger.rs:315-383", "crates/formualizer-eval/src/engine/resource_ledger.rs:507-761"]}
{"id": "C96", "title": "Rolling back a transaction brings back the state in which it began", "statement": "Whatever is edited, saved, partly rolled back, refused or begun again while a transaction is open, rolling it back gives the graph and the log as they were when it began, and rolling back to a savepoint gives them as they were when the savepoint was set. A commit succeeds exactly when the transaction is within its size and keeps everything; a refused call changes nothing; one transaction is open at a time, and later ones have larger ids; no sequence of calls panics.", "quantifier": "for all graphs and reversible edits and for all sequences of calls", "why_tests_cant": "the interleavings of edits, savepoints and partial rollbacks are unbounded", "anchors": ["crates/formualizer-eval/src/engine/graph/editor/transaction_context.rs:22-203", "crates/formualizer-eval/src/engine/graph/editor/transaction_manager.rs:76-258", "crates/formualizer-eval/src/engine/graph/editor/vertex_editor.rs:432-463"]}
{"id": "C97", "title": "INDEX, OFFSET, ADDRESS and INDIRECT name exactly the cells they describe", "statement": "INDEX(range, i, j) is the cell in row i and column j of the range, a whole row or column or the whole range where an index is 0, and #REF! exactly where there is no such row or column; with one index it counts along a single row or down the first column, and it shows the same for a range as for an array with the same values. OFFSET is the rectangle of the given size shifted by the given numbers, and #REF! exactly where that does not lie in the grid; offsets add up. ROWS, COLUMNS, ROW and COLUMN tell the size and first cell of what is read. INDIRECT(ADDRESS(r, c, anchors, TRUE, sheet)) is the cell (r, c) of the sheet.", "quantifier": "for all ranges, indices, offsets, sizes and sheet names", "why_tests_cant": "ranges, numbers and names are unbounded and the arithmetic is done in three integer widths", "anchors": ["crates/formualizer-eval/src/builtins/reference_fns.rs:94-487", "crates/formualizer-eval/src/builtins/reference_fns.rs:567-700", "crates/formualizer-eval/src/builtins/reference_fns.rs:772-897", "crates/formualizer-eval/src/builtins/lookup/reference_info.rs:96-600", "crates/formualizer-eval/src/builtins/lookup/address.rs:146-315", "crates/formualizer-eval/src/engine/eval.rs:23370-23492"]}
{"id": "C98", "title": "Logical functions decide by their values, evaluate only the branch they take, and keep errors", "statement": "AND is FALSE if some value counts as FALSE, else the first error, else TRUE; OR is TRUE if some value counts as TRUE, else the first error, else FALSE; the two obey De Morgan's laws with NOT, errors included; XOR is TRUE exactly for an odd number of TRUE values. IF, IFS, SWITCH and CHOOSE give the branch that the first fitting condition, candidate or index selects, and evaluate no other branch. IFERROR never shows an error of its first argument, IFNA replaces #N/A and nothing else. An error as a condition or as an operand of & shows as this error.", "quantifier": "for all numbers of arguments and all values, errors, ranges and arrays among them", "why_tests_cant": "the functions take any number of arguments of any kind, and untaken branches leave no trace in a result", "anchors": ["crates/formualizer-eval/src/builtins/logical.rs:205-498", "crates/formualizer-eval/src/builtins/logical_ext.rs:56-665", "crates/formualizer-eval/src/builtins/lookup/choose.rs:67-159", "crates/formualizer-eval/src/traits.rs:372-430", "crates/formualizer-eval/src/traits.rs:793-1011", "crates/formualizer-eval/src/interpreter.rs:1205-1266"]}
{"id": "C99", "title": "The report of an evaluation lists every cell that changed, once, and no other", "statement": "After an evaluation with a delta, the reported runs and regions hold exactly the cells that were recorded, whatever the order and the overlap of the records, and stand in order. The list of packed cells is strictly ascending, without repetitions, and holds exactly these cells. Every cell that reads differently after the evaluation is in the report; a cell that reads the same is not. A limit on the number of cells refuses a report exactly if more cells changed.", "quantifier": "for all records in any order, all runs of scalar results, cleared and committed spills and flushed buffers, all cell values, all limits", "why_tests_cant": "merging depends on the order and overlap of any number of records, and reporting on the whole history of writes to a cell", "anchors": ["crates/formualizer-eval/src/engine/eval_delta.rs:118-345", "crates/formualizer-eval/src/engine/eval.rs:16307-16357", "crates/formualizer-eval/src/engine/eval.rs:25357-25492", "crates/formualizer-eval/src/engine/eval.rs:25692-25718", "crates/formualizer-eval/src/engine/eval.rs:25788-25910", "crates/formualizer-common/src/address.rs:85-93"]}
{"id": "C100", "title": "Regression gives the line of least squares, correlation lies between -1 and 1, and pairs are numbers that stand side by side", "statement": "SLOPE and INTERCEPT give the one line with the least sum of squared distances from the points, and fail exactly if all x are the same; FORECAST, TREND and LINEST use this line (through the origin where asked). CORREL lies between -1 and 1, is symmetric and blind to scale and origin; RSQ is its square and is 1 exactly for points on a line; STEYX is the root of the residuals of that line over n-2. The covariances, SUMX2MY2, SUMX2PY2 and SUMXMY2 obey their identities. The points are the pairs of numbers that stand side by side in the two ranges; errors show.", "quantifier": "for all lists of pairs of any length, all cells among them, all other lines", "why_tests_cant": "being the best line is a claim about all other lines, and pairing about every arrangement of non-numbers", "anchors": ["crates/formualizer-eval/src/builtins/stats/mod.rs:31-105", "crates/formualizer-eval/src/builtins/stats/mod.rs:2514-2803", "crates/formualizer-eval/src/builtins/stats/mod.rs:5279-5655", "crates/formualizer-eval/src/builtins/stats/mod.rs:6041-6340", "crates/formualizer-eval/src/builtins/stats/mod.rs:6730-6855", "crates/formualizer-eval/src/builtins/math/numeric.rs:3053-3290"]}
{"id": "C101", "title": "A workbook saved as JSON is the workbook opened again, and a cell written is the cell read", "statement": "A value written to a JSON workbook, saved and read again is the same value, also inside arrays. Any sequence of writes and clears leaves each cell with what was last written to it, and reading a range gives the cells of the sheet there. Renaming, creating and deleting a sheet concern this sheet only. Defined names are kept, and names of old files are taken over once each. On loading, every cell reaches the engine, nothing else does, and the limits of rows, columns and cells are kept.", "quantifier": "for all values of any depth, all sequences of writes and clears, all cells, names and limits", "why_tests_cant": "the loss depends on single values (a fraction of a second, a second entry of a place) and on the path chosen by the size of the sheet", "anchors": ["crates/formualizer-workbook/src/backends/json.rs:196-262", "crates/formualizer-workbook/src/backends/json.rs:408-540", "crates/formualizer-workbook/src/backends/json.rs:580-665", "crates/formualizer-workbook/src/backends/json.rs:711-807", "crates/formualizer-workbook/src/load_limits.rs:4-84", "crates/formualizer-common/src/error.rs:42-80"]}
{"id": "C102", "title": "The database functions work on exactly the records that meet the criteria, in whatever order rows and columns stand", "statement": "DSUM, DAVERAGE, DCOUNT, DCOUNTA, DMAX, DMIN, DPRODUCT, DGET, DVAR, DVARP, DSTDEV and DSTDEVP take the cells of the named field in exactly the records that meet all conditions of some row of the criteria: rows are alternatives, cells of a row conditions. They give the sum, number, mean, extremes, product, the one value and the variances of them. The order of records and, with fields given by name, of columns does not matter. Errors in chosen records show, others do not.", "quantifier": "for all databases, fields and criteria of any size, all ways to parse and match a criterion, all orders of rows and columns", "why_tests_cant": "choice of records, alternatives and order are claims about every table and every arrangement of criteria", "anchors": ["crates/formualizer-eval/src/builtins/database.rs:49-184", "crates/formualizer-eval/src/builtins/database.rs:186-340", "crates/formualizer-eval/src/builtins/database.rs:350-480", "crates/formualizer-eval/src/builtins/database.rs:482-577", "crates/formualizer-eval/src/builtins/database.rs:579-670"]}
{"id": "C103", "title": "Bitwise functions work on every bit, conversions of units keep the quantity, and complex numbers in cells calculate like complex numbers", "statement": "BITAND, BITOR and BITXOR combine every bit of two whole numbers below 2^48; BITLSHIFT and BITRSHIFT multiply and divide by powers of two, a result that does not fit is #NUM!. CONVERT between units of one kind keeps the quantity, composes and can be undone; anything else is #N/A. COMPLEX writes what IMREAL and IMAGINARY read, and IMSUM, IMSUB, IMPRODUCT, IMDIV, IMCONJUGATE and IMABS are sum, difference, product, quotient, conjugate and absolute value of complex numbers, in whatever order they are given.", "quantifier": "for all numbers, shifts, pairs of units, complex numbers, numbers and orders of arguments, and all lawful ways to print and read numbers", "why_tests_cant": "tests convert a few units and add a few numbers; laws of bits, of units and of complex arithmetic hold for all of them or fail at bounds no test visits", "anchors": ["crates/formualizer-eval/src/builtins/engineering.rs:15-22", "crates/formualizer-eval/src/builtins/engineering.rs:57-305", "crates/formualizer-eval/src/builtins/engineering.rs:320-480", "crates/formualizer-eval/src/builtins/engineering.rs:2754-2916", "crates/formualizer-eval/src/builtins/engineering.rs:2964-3030", "crates/formualizer-eval/src/builtins/engineering.rs:3428-3838", "crates/formualizer-eval/src/builtins/engineering.rs:5068-5325"]}
{"id": "C104", "title": "A formula that reads an open range is computed after the formulas in it", "statement": "The rectangle in which the engine looks for pending formulas before it computes a formula with a range contains every used cell that the evaluation of the range reads; so exactly the pending formulas among them are computed first, and none outside of the range is waited for. This holds for every range that can be written except a column before a row, like A:3, where pending formulas above the first used cell of the column are missed.", "quantifier": "for all ranges, sets of used cells and fallback bounds", "why_tests_cant": "two resolutions of the same range with different rules must agree for every arrangement of used cells", "anchors": ["crates/formualizer-eval/src/engine/used_extent.rs:84-252", "crates/formualizer-eval/src/engine/virtual_deps.rs:289-387", "crates/formualizer-eval/src/engine/graph/range_deps.rs:340-368"]}
{"id": "C105", "title": "A formula that reads its own cell through a range is reported as circular, however it is entered", "statement": "A formula with a large or open range on its own sheet that covers its own cell is recorded as depending on itself, unless every occurrence of that range stands directly in an INDEX with written numbers that select other cells; in that case the evaluation of INDEX does not read the cell of the formula, whatever rows are used by then. A formula whose ranges do not cover its cell is not recorded. This should hold alike for a formula entered by an edit and for one loaded with a workbook; it does not: building the edges after a load drops the record, and a range over several columns that is loaded covers the whole sheet.", "quantifier": "for all formulas, ranges, places, used rows and columns and histories of edits and loads", "why_tests_cant": "the tests enter formulas one by one; nesting of INDEX, bounds of ranges and used rows vary without limit", "anchors": ["crates/formualizer-eval/src/engine/graph/range_deps.rs:305-553", "crates/formualizer-eval/src/engine/graph/range_deps.rs:580-591", "crates/formualizer-eval/src/engine/ingest_builder.rs:630-690", "crates/formualizer-eval/src/engine/delta_edges.rs:863-938"]}
{"id": "C106", "title": "SUMIF, AVERAGEIF, COUNTIF and SUMIFS add up the cells at matching offsets, and are recalculated when one of these cells is edited", "statement": "For ranges of any size and sheets cut into any chunks, SUMIF and AVERAGEIF take the numbers at those offsets from the corner of the target where the criteria range holds a number that meets the criterion, and COUNTIF counts these offsets; only the corner of the target matters. SUMIFS over ranges of one size adds the target where all criteria are met, in whatever order they are written. A cell that has an influence on the value should be one of those whose edits reach the formula; this holds exactly if the cells at the offsets of the criteria range from the corner of the target all lie in the written ranges, so not for a short target.", "quantifier": "for all workbooks, chunkings, ranges, criteria on numbers and edits", "why_tests_cant": "tests use a few ranges of equal size in one chunk and do not edit cells beyond a short target", "anchors": ["crates/formualizer-eval/src/builtins/math/criteria_aggregates.rs:88-690", "crates/formualizer-eval/src/engine/range_view.rs:67-182", "crates/formualizer-eval/src/engine/range_view.rs:286-302", "crates/formualizer-eval/src/engine/range_view.rs:1043-1152", "crates/formualizer-eval/src/engine/ingest_pipeline.rs:332-470"]}
{"id": "C107", "title": "SUMPRODUCT multiplies the arguments place by place and adds the products", "statement": "Without errors in cells SUMPRODUCT is the sum over all places of the product of what the arguments hold there; a single row or column stands for all. It does not depend on the order of the arguments. An error in any cell shows. Arguments whose sizes differ and are not 1 give #VALUE!. For whole columns this should mean the products row by row; it does not, because a whole column ends at its last used row.", "quantifier": "for all numbers of arguments, arrays, sizes, places of errors and used rows", "why_tests_cant": "tests use a few small arrays of one size; shapes, orders and used rows vary without limit", "anchors": ["crates/formualizer-eval/src/builtins/math/aggregate.rs:474-556", "crates/formualizer-eval/src/broadcast.rs:5-36", "crates/formualizer-eval/src/coercion.rs:10-37", "crates/formualizer-eval/src/engine/range_view.rs:512-525", "crates/formualizer-eval/src/engine/used_extent.rs:84-252"]}
{"id": "C108", "title": "Every record of a shared formula taken in parts has one place to go", "statement": "A shared formula taken in parts is accepted just when its parts and the cells listed alone share no cell, lie within the declared rectangle, and the numbers given count exactly the cells of the family, the ordinary formulas and the cells nobody claims. What the loader hands over is of this kind. The router accepts such families and finds for each cell whether it belongs to the family. Once the plan owns the family, its records in parts are handled directly, those listed alone and the ordinary formulas within go to the graph, and no other cell is touched; entering other families does not change that. Records at cells edited meanwhile are dropped.", "quantifier": "for all numbers and positions of parts and cells, all plans, all lists of families, all sheets of records", "why_tests_cant": "the sweep and the tree depend on the arrangement of up to 128 rectangles; tests use a few columns", "anchors": ["crates/formualizer-eval/src/engine/formula_source.rs:66-95", "crates/formualizer-eval/src/engine/formula_source.rs:155-389", "crates/formualizer-eval/src/engine/formula_source.rs:392-787", "crates/formualizer-eval/src/engine/formula_source.rs:827-875", "crates/formualizer-workbook/src/backends/calamine.rs:655-706", "crates/formualizer-workbook/src/backends/calamine/formula_replay.rs:395-447"]}
{"id": "C109", "title": "Day counts, fractions of a year and week numbers", "statement": "DAYS360 by the European method adds up and changes its sign with the dates; by either method a later end never lowers it and the same day of n months later is 30 n days later. YEARFRAC by basis 1 counts every day as one part of the year it lies in; by the bases 1 to 4 it adds up over dates in any order and is what the functions for bonds use; by every basis exchanging the dates changes only the sign, and a later end never lowers it. ISOWEEKNUM is from 1 to 53, the same from Monday to Sunday, goes on by one from week to week and is 1 on January 4th. WEEKNUM counts the beginnings of weeks since January 1st, and with type 21 it is ISOWEEKNUM.", "quantifier": "for all dates, bases, kinds of week, both date systems", "why_tests_cant": "the rules of the ends of months and of years interact; tests compare single pairs of dates", "anchors": ["crates/formualizer-eval/src/builtins/datetime/date_parts.rs:28-86", "crates/formualizer-eval/src/builtins/datetime/date_parts.rs:230-265", "crates/formualizer-eval/src/builtins/datetime/date_parts.rs:340-420", "crates/formualizer-eval/src/builtins/datetime/date_parts.rs:480-490", "crates/formualizer-eval/src/builtins/datetime/weekday_workday.rs:238-332", "crates/formualizer-eval/src/builtins/financial/bonds.rs:46-160"]}
{"id": "C110", "title": "Coupon dates, prices and yields of bonds and bills", "statement": "The coupons of a bond fall on the day of its maturity every 12/frequency months back from it (or on the last day of shorter months). The functions for bonds take as previous coupon the last one before the settlement, as next the following one, and as remaining those due on the settlement or later. PRICE discounts these over a part of a period between 0 and 1; a bond that yields its rate costs 100 on a coupon date; a higher yield means a lower price; a yield found reproduces the price within the tolerance. TBILLPRICE, TBILLYIELD and TBILLEQ agree with each other. ACCRINT with calc_method 0 counts from the last coupon before the settlement.", "quantifier": "for all dates of years 1 to 200000, frequencies, rates, yields, bases", "why_tests_cant": "dates drift only for some maturities, and the search for the yield depends on the whole price curve", "anchors": ["crates/formualizer-eval/src/builtins/financial/bonds.rs:46-228", "crates/formualizer-eval/src/builtins/financial/bonds.rs:350-364", "crates/formualizer-eval/src/builtins/financial/bonds.rs:630-690", "crates/formualizer-eval/src/builtins/financial/bonds.rs:830-905", "crates/formualizer-eval/src/builtins/financial/bonds.rs:962-1218"]}
{"id": "C111", "title": "Ports: tables are read back as written, batches leave the workbook as it was", "statement": "The data of a layout end before the first blank row or the marker, however many rows the store holds. Writing a table changes only its columns below the header, and reading it gives the rows written; the same holds for ranges with their headers, whose columns run to the first blank header. A batch runs every scenario on the inputs as they were found, so that its result does not depend on the other scenarios, and leaves all values as it found them, whether it succeeds or not.", "quantifier": "for all sheets, layouts, columns, tables, lists of ports, lists of scenarios, evaluations and validations", "why_tests_cant": "tests use a few rows on empty sheets; what is overwritten depends on what lies below and on the rows of all earlier scenarios", "anchors": ["crates/formualizer-sheetport/src/layout.rs:13-22", "crates/formualizer-sheetport/src/layout.rs:51-193", "crates/formualizer-sheetport/src/layout.rs:240-359", "crates/formualizer-sheetport/src/runtime.rs:166-253", "crates/formualizer-sheetport/src/runtime.rs:846-890", "crates/formualizer-sheetport/src/runtime.rs:939-990", "crates/formualizer-sheetport/src/runtime.rs:1061-1214", "crates/formualizer-sheetport/src/runtime.rs:1229-1305", "crates/formualizer-sheetport/src/batch.rs:282-374"]}
{"id": "C112", "title": "What a port hands out meets its manifest", "statement": "A value read from a port has the declared type and lies within its limits, pattern and enumeration; empty values only where they are allowed. What is read may be written back, and is then read again as the same value. Defaults fill what is missing or empty and nothing else. A default or a value that the manifest allows can be read.", "quantifier": "for all kinds of ports, manifests, values of cells, defaults, date systems and patterns", "why_tests_cant": "tests read a few values; defaults, normalisation, coercion and validation meet in combinations of types, emptiness and limits", "anchors": ["crates/formualizer-sheetport/src/validation.rs:41-403", "crates/formualizer-sheetport/src/validation.rs:412-493", "crates/formualizer-sheetport/src/runtime.rs:614-626", "crates/formualizer-sheetport/src/runtime.rs:1316-1400", "crates/formualizer-sheetport/src/binding.rs:375-413", "crates/formualizer-sheetport/src/value.rs:43-97"]}
{"id": "C113", "title": "Characters, their codes and repeated texts", "statement": "CODE undoes CHAR and CHAR undoes CODE on the characters of Windows-1252; UNICODE and UNICHAR undo each other on all characters. ASC turns full-width characters into their half-width forms and changes nothing else; CLEAN removes control characters and nothing else. REPT returns the text repeated, or #VALUE! if it would have more than 32767 characters or the number is negative; no formula makes it fail otherwise.", "quantifier": "for all numbers, characters and texts", "why_tests_cant": "tests try a few letters; the tables of the two directions must agree entry by entry, and lengths overflow only for numbers nobody tries", "anchors": ["crates/formualizer-eval/src/builtins/text/char_code_rept.rs:86-140", "crates/formualizer-eval/src/builtins/text/char_code_rept.rs:205-258", "crates/formualizer-eval/src/builtins/text/char_code_rept.rs:262-275", "crates/formualizer-eval/src/builtins/text/char_code_rept.rs:407-441", "crates/formualizer-eval/src/builtins/text/extended.rs:105-114", "crates/formualizer-eval/src/builtins/text/extended.rs:180-201", "crates/formualizer-eval/src/builtins/text/extended.rs:267-281"]}
{"id": "C114", "title": "Random numbers are reproducible, and different where they should be", "statement": "RAND, RANDBETWEEN and RANDARRAY draw from a generator seeded by the workbook's seed, the cell, the function and the recalculation: other cells, functions, workbook seeds and recalculations get other seeds; each call in a formula draws another number. RAND is in [0, 1), RANDBETWEEN gives a whole number between its bounds, RANDARRAY gives an array of the size asked for with every value between its bounds.", "quantifier": "for all workbook seeds, cells, recalculations, bounds and sizes", "why_tests_cant": "tests compare the numbers of two cells; that no two of 2^50 cells and 2^64 recalculations share a seed is a statement about the arithmetic of words", "anchors": ["crates/formualizer-eval/src/rng.rs:6-50", "crates/formualizer-eval/src/traits.rs:1776-1789", "crates/formualizer-eval/src/function.rs:138-146", "crates/formualizer-eval/src/builtins/random.rs:68-79", "crates/formualizer-eval/src/builtins/random.rs:219-248", "crates/formualizer-eval/src/builtins/lookup/dynamic.rs:50-66", "crates/formualizer-eval/src/builtins/lookup/dynamic.rs:1404-1488"]}
{"id": "C115", "title": "Classes of number formats", "statement": "The class of a number format depends only on what its first section says: quoted texts, escaped characters, colours, conditions and locales change nothing, nor does upper or lower case. Dates name a year, month or day, times an hour, minute or second; elapsed times are durations. The decimals of a number are the digit places after the point. Reading the code of a format gives the format back.", "quantifier": "for all format codes", "why_tests_cant": "format codes are free texts of users and other programs; tests try the common ones, and a letter in a quoted unit decides whether a number is shown as a date", "anchors": ["crates/formualizer-common/src/numfmt.rs:28-63", "crates/formualizer-common/src/numfmt.rs:65-75", "crates/formualizer-common/src/numfmt.rs:77-114", "crates/formualizer-common/src/numfmt.rs:116-173", "crates/formualizer-common/src/numfmt.rs:175-216"]}
{"id": "C116", "title": "Options of one evaluation leave no trace", "statement": "Evaluating ports once with a seed, frozen volatiles, a deterministic mode or budgets shows the evaluation exactly these and leaves the engine's seed, level, mode, budgets and clock as they were, whether it succeeds, fails or is refused. With a seed and frozen, RAND gives the same numbers in every engine and at every evaluation.", "quantifier": "for all engines, options and evaluations, including failing ones", "why_tests_cant": "tests try one option on an engine with defaults; what is lost shows only for combinations and for engines set up by hand", "anchors": ["crates/formualizer-sheetport/src/runtime.rs:292-317", "crates/formualizer-sheetport/src/runtime.rs:1411-1512", "crates/formualizer-eval/src/engine/eval.rs:3889-3908", "crates/formualizer-eval/src/engine/mod.rs:591-619"]}
{"id": "C117", "title": "LOOKUP finds the last entry not above the one sought", "statement": "LOOKUP in a row or column that never falls returns the result standing at the last place whose entry is not above the value sought, and #N/A exactly if all entries are above it. On an array it searches the first row and answers from the last row if the array is wider than tall, otherwise the first and the last column. Blanks, errors and entries of other types are passed over, as in MATCH.", "quantifier": "for all vectors, arrays and values sought, of any size and in any order", "why_tests_cant": "tests try a few short sorted vectors; which entry the halving stops at depends on length and on every entry it meets", "anchors": ["crates/formualizer-eval/src/builtins/lookup/legacy.rs:28-47", "crates/formualizer-eval/src/builtins/lookup/legacy.rs:178-263", "crates/formualizer-eval/src/builtins/lookup/legacy.rs:295-326"]}
{"id": "C118", "title": "TEXT writes numbers as the code says", "statement": "TEXT of a number has as many decimals as the code has places for them, and separates thousands exactly if the code has a comma among its places: a comma stands before every third digit counted from the point, and without the commas the digits are those of the rounded number. Percentages have the decimals asked for, and a number that rounds to 0 has no sign.", "quantifier": "for all numbers of any length and all codes", "why_tests_cant": "tests try a few numbers in a few codes; where the commas fall depends on the count of digits, and which code is understood on every character in it", "anchors": ["crates/formualizer-eval/src/builtins/text/value_text.rs:299-372", "crates/formualizer-eval/src/builtins/text/value_text.rs:374-437"]}
{"id": "C119", "title": "NUMBERVALUE reads numbers with the separators given", "statement": "NUMBERVALUE reads a text with the decimal separator and the group separator it is given: group separators before the decimal separator are left out, those behind it are refused, a character that is neither a digit nor one of the two is refused, and every percent sign at the end divides by 100.", "quantifier": "for all texts, separators and counts of percent signs", "why_tests_cant": "tests try one text per separator; the loop over percent signs and the replacements depend on every character", "anchors": ["crates/formualizer-eval/src/builtins/text/value_text.rs:188-222"]}
{"id": "C120", "title": "DATEVALUE reads slash dates in one order", "statement": "DATEVALUE reads three numbers with slashes between as month, day and year, refuses them if there is no such day, takes years of two digits for 1930 to 2029, and reads back every date TEXT writes with mm/dd/yyyy.", "quantifier": "for all texts of three numbers with slashes, all years, months and days", "why_tests_cant": "tests try a few dates; whether the order is kept depends on which days there are for every month and year", "anchors": ["crates/formualizer-common/src/date_serial.rs:70-107", "crates/formualizer-eval/src/builtins/datetime/date_value.rs:12-31", "crates/formualizer-eval/src/builtins/datetime/date_value.rs:118-120"]}

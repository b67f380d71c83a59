# Formal model of formualizer: design

## Layout

* `properties.jsonl`: the English properties, C01, C02, ...
* `lean/Verif/<Area>/Model.lean`: model of the code, function by function; each definition cites `/repo` file and lines.
* `lean/Verif/<Area>/Lemmas.lean` (or `Proofs*.lean`): helper lemmas.
* `lean/Verif/<Area>/Props.lean`: the property theorems, each with a small independent specification and `example`s that show the hypotheses are met by a non-trivial case.
* `MANIFEST.json`: property -> theorems.
* `seeded/LOG.jsonl`: mutation log.

## Trusted base

* Lean 4.33.0 kernel. Axioms allowed: `propext`, `Classical.choice`, `Quot.sound` (Lean's standard ones). No axiom is added; no `sorry`, `native_decide`, `bv_decide`.
* The correspondence between the Rust source and the model is by reading: each definition cites the lines it models and says where it simplifies.
* Rust standard library containers (Vec, HashMap, HashSet, BTreeMap) are modelled by lists, finite maps or functions; their own correctness is assumed. Hash iteration order is modelled as an arbitrary order where it can be observed.
* Machine integers are modelled as `Nat`/`Int` except where wrap-around, bit packing or truncation is the subject (then `BitVec`/`UInt64` or explicit `%`).
* Memory, concurrency primitives (atomics, rayon), I/O and floating point arithmetic are not modelled except where said.

## Plan per property

| id | model | proof |
|----|-------|-------|
| C01 | `Coord`: packing over `BitVec 64`/Nat, all constructors | bit-level extensionality, `omega` |
| C02 | column letters as lists of letter values | induction, bijective base 26 |
| C03 | A1 printer and parser on `List Char` | round trip through lexer lemmas |
| C04 | `PackedSheetCell` | same as C01 |
| C05 | signed conversion | code truncates with `as u32`: negation with a witness, `_partial` for |x| < 2^32 |
| C06 | quoting | round trip on `List Char` |
| C07, C08 | serial conversion over day numbers (`Int`), rationals for times | case analysis + omega |
| C09 | Kahn layering | loop invariant |
| C10 | iterative Tarjan | refinement to recursive invariant |
| C11 | Pearce-Kelly order | the code's `splice_after` is wrong: negation with a witness; invariant for the rest `_partial` |
| C12 | CSR + delta slab | refinement to a set of edges over histories |
| C13 | interval tree | refinement to a finite map |
| C14 | stripe index | completeness of stripe choice + exactness |
| C15, C16 | BFS over dependents; deferred scopes | reachability invariant |
| C17 | lease protocol | state machine with ghost event ids |
| C18 | abstract evaluator | induction over layers, uniqueness of the fixpoint |
| C19, C20 | change log, undo engine | invariant over histories |
| C21-C23 | reference adjuster on ASTs | case analysis + structural induction |
| C24 | printer + Pratt parser on tokens | the printer drops needed parentheses in some cases: negations; `_partial` on the good fragment |
| C25, C26 | span tokenizer on byte lists | loop invariant |
| C27, C28 | spill registry | invariant over histories, rollback |
| C45 | Pratt parser on chains | induction over the chain with the binding power as a parameter |
| C46-C49 | targets, plans, computed references, logged edits over the same engine | demand closure; plan invariant; negations |
| C50-C53 | wildcard matchers against one inductive specification; masks against cell-by-cell matching | loop invariant for the backtracking matcher; UTF-8 boundary lemmas; negations |
| C54, C55 | bisection and linear search over searchable entries; three routes of exact lookup | loop invariants against "best place" and "first place"; negations |
| C56, C57 | cells spread over typed lanes; fragments and their cuts; overlays; windows read as arrays | refinement to "last write" over histories; cell-by-cell specification of the arrays; negations |
| C58 | chunked columns, dense and sparse; row plans; growth; compaction; the ingest builder | refinement to a plain grid, by an invariant on chunk widths, over histories; negations |
| C59, C60 | formula spans: region algebra, the region index, projections, the dirty closure, the references of a formula | sets of cells; completeness and soundness of the search per shape; invariant of the work list against an inductive closure |
| C61 | formula spans under insertion and deletion: classification, shift, split, compaction, rewriting of the stored formula, read summaries | each cell's references before and after, related through the map that moves the sheet's cells; invariant over sequences of operations; counterexamples |
| C62 | the value store: packed references, interners, arrays | reading back is the inverse of storing, after every later history; counterexamples |
| C63, C64 | the formula store and the sheet registry | reading back is the inverse of storing up to the names of sheets, for all hashes; invariant of the registry over all histories; counterexamples |
| C65, C66 | sheets: registry and storage side by side; formulas whose sheets are removed and come back | refinement to a list of named sheets, resp. to formulas with references to sheets or missing names, over all histories; counterexamples |
| C67 | folding of formulas into spans: keys, encoding of constants, the formula computed at each cell | prefix-freeness of the key by induction over formulas; decoding inverts encoding; exact characterisation of the cells that compute their own formula; counterexample |
| C68 | spans moved by insertions and deletions: templates, anchors, constants | induction over sequences of shifts; exact characterisation of the spans that keep their formulas; counterexamples |
| C69 | evaluation of spans in groups of cells with equal parameters | induction over formulas: equal parameters give equal results; the groups are a partition; counterexamples |
| C70, C71, C72 | functions that return arrays | refinement to sorted, filtered and re-indexed lists, for every sorting procedure; counterexamples |
| C73, C74 | functions on texts | first places, patterns as a relation, the parts of a text as an inductive relation with existence and uniqueness; counterexamples |
| C75, C76, C77 | operators, comparisons, ranges | cells of results for all arrays, laws of the comparison as relations on values, rectangles as sets of places; counterexamples |
| C78, C79 | `LET`, `LAMBDA`, dependencies | evaluation by bounded steps with closures; induction over the steps with a relation between environments; the visitor's stack against a recursive list of mentions; counterexamples |
| C80, C81 | cells of loops | passes over programs of reads; invariant on what was read in which state; values that become known step by step, by counting; the search of components of C10 for the analysis; counterexamples |
| C82 | numbers in other bases, Roman numerals | place value of a text as specification; induction over digits; a numeral as a sum with signs |
| C83 | hidden rows | a predicate on rows as specification; words of bits refine it; induction over histories |
| C84 | aggregates, SUBTOTAL, AGGREGATE | columns of chunks are a permutation of the cells; induction over arguments |
| C85 | caches by data snapshot | entries of the current snapshot are right, none is of a later one; induction over histories |
| C86 | order statistics | place in the sorted list as a count of smaller numbers; interpolation as one function of a rational place; induction over sorted lists |
| C87 | loans, annuities, depreciation | recurrence of the balance as specification, closed forms over the reals by induction, sums over periods |
| C88 | rates of return | invariant of the bracket over rounds for any continuous function, intermediate value theorem; derivatives in Mathlib's calculus |
| C89 | rounding, division, counting | floor and ceiling over the rationals with overflow as infinity; divisibility and Mathlib's combinatorial numbers as specification |
| C90 | spool of formulas | encoder and decoder over lists of bytes; append and replay of a store in memory or a file; expansion of shared formulas against a specification by position |
| C91 | families of shared formulas | the state machine over records with all its limits; an invariant saying which cells of a rectangle are accounted for; bands and rectangles for the exclusions |
| C92 | structured references | every scanner of the reader over lists of characters; a grammar of the written forms as inductive relations; texts with paired brackets |
| C93 | tables | the four computations of a table's cells as functions to rectangles; rows and columns of a table described by predicates; an invariant of the two maps of names over all calls |
| C94 | CSV files | cells as a function with bounds, files as lists of records; inference specified by numerals and spellings; round trips in both directions for all sheets and all files |
| C95 | resource ledger | a state machine of amounts over all sequences of operations; limits as predicates; invariants by induction |
| C96 | transactions | a state machine over a parametric graph; reversible paths of events; invariant of an open transaction by induction over calls |
| C97 | INDEX, OFFSET, ADDRESS, INDIRECT | rectangles with bounded integer arithmetic; membership of cells as specification; agreement of the reference and the array path; composition; text round trip on top of C03 and C29 |
| C98 | logical functions | arguments with their value, cells and failures; calls return the arguments they evaluated; three-way classification of values as specification; De Morgan from the specifications of AND and OR |
| C99 | report of changed cells | records as rectangles, sorting by keys, two sweeps; cover is an invariant of a sweep (abstract `Sweeping`), disjointness too; acts on cells that record by comparing with what is read |
| C100 | paired statistics | centred sums; residuals of any line as the least ones plus two squares; Cauchy's inequality from it; real roots |
| C101 | JSON workbooks | digits written and scanned again; values by mutual induction with an exact specification of the loss; cells as a refinement of partial functions |
| C102 | database functions | criteria rows against a specification by names; permutations of rows; columns found by name in any order; sums over all records |
| C103 | bits, units, complex numbers | bit vectors against bits of naturals; units against a table of affine maps; printing and reading inverse under laws of the standard library; folds against sums and products in Mathlib's complex numbers |
| C104 | open ranges: order | two resolutions of a range compared side by side, case by case on the sides that are written |
| C105 | self references through ranges | occurrence relation for the visit of the tree; INDEX compared with the model of C97; edges of C12 after a load |
| C106 | SUMIF over rectangles and its edits | sums over chunks rewritten to sums over offsets; the edits missed characterised by a pair of workbooks that differ in one cell |
| C107 | SUMPRODUCT | fold over sizes characterised; products and sums over places by induction; whole columns through the extents of C104 |
| C108 | routing of shared formulas taken in parts | sweep by induction over sorted events with the open rectangles as invariant; tree by induction; counts by disjoint unions; end to end through C91 |
| C109 | day counts, fractions of a year, week numbers | US method by cases on the ends of months; YEARFRAC as difference of positions; weeks by residues of the day number |
| C110 | coupons, prices, yields, bills | the walk back by induction over coupons with the month index; prices as sums of powers; the bill yields by algebra |
| C111 | ports, layouts of tables, batches | the scan by induction; writes as blocks; batch by an invariant over scenarios (tables free below, other cells untouched) from which the baseline brings back the first state |
| C112 | types, limits and defaults of ports | the validation against a specification in terms of the manifest; normalisation and coercion as maps that are idempotent and keep empty values, from which reading again follows |
| C113 | codes of characters, ASC, CLEAN, REPT | the two tables against each other; code points as numbers; the length of REPT in 64 bits |
| C114 | seeds of random numbers; RAND, RANDBETWEEN, RANDARRAY | words as bit vectors; mixing has an inverse; a position turned by 17 and by 24 bits is the same only if it is 0 |
| C115 | classes of number formats | parts as they are written, against the loop over characters |
| C116 | apply and restore options around an evaluation | the fields the options touch; the evaluation as a function on the rest |
| C117 | LOOKUP as a bisection over any list | invariant of the bisection, then order |
| C118 | TEXT of a number over lists of characters | separators by recursion from the end; the rest by cases on the code |
| C119 | NUMBERVALUE over lists of characters | the loop by induction on the percent signs, the replacements as filter and map |
| C120 | DATEVALUE of slash dates over lists of characters | splitting undone by `splitOn_intercalate`; reading back by `pad_value` |
| C43, C44 | region locks, evaluation of array results | invariant over histories of the engine; negations |

Sections below are appended as the model grows.

## Axioms

`AXIOMS.md` lists, for every theorem named in MANIFEST.json, the axioms `#print axioms` reports. Only `propext`, `Classical.choice` and
`Quot.sound` occur.

## What is modelled, area by area

Paths are under `/repo/crates`. "Left out" names what the theorems say nothing about.

| area | code | left out |
|------|------|----------|
| `Coord` | `formualizer-common/src/coord.rs`: packing, constructors, relative coordinates, offsets, conversion from signed | `Display`, serde |
| `PackedCell` | `formualizer-common/src/address.rs`: packed sheet-cell keys | hashing |
| `A1` | column letters and A1 text: the renderers and parsers in common, parse and eval | non-ASCII input |
| `SheetRef` | sheet-name quoting and reference text (`parse/src/parser.rs` reference printing and parsing) | structured (table) references, names |
| `Dates` | `common/src/date_serial.rs`, `eval/src/builtins/datetime/*` DATE, TIME, EDATE, EOMONTH, WEEKDAY, WORKDAY, NETWORKDAYS, DATEDIF | text parsing of dates, argument coercion, the rounding of `fract * 86400.0`; `chrono` is described by `Dates/Calendar.lean` |
| `DirtyLease` | `eval/src/engine/graph/formula_dirty.rs` | counters |
| `Stripes` | `graph/range_deps.rs`, range part of `graph/mod.rs`, `ingest_builder.rs` range keys | sheet resolution |
| `Dirty` | dirty propagation in `graph/mod.rs` | vertex kinds other than their dirty flag |
| `Edges` | `csr_edges.rs`, `delta_edges.rs` | 2^32 or more edges |
| `Interval`, `SheetIndex` | `interval_tree.rs`, `sheet_index.rs` | heap estimates |
| `Sched` | `scheduler.rs`: Tarjan, layers, condensation units, virtual dependencies | the dynamic-order branch (its order is `Topo`) |
| `Topo` | `topo/pk.rs` | 2^32 or more nodes |
| `Undo` | `graph/editor/change_log.rs`, `undo_engine.rs`, value and formula edits of `vertex_editor.rs`, grouping in `workbook.rs` | undo of spills, structural edits, vertex and name events |
| `Adjust` | `graph/editor/reference_adjuster.rs`, copy/move/insert/delete in `vertex_editor.rs`, `names.rs` adjustment, cell map in `graph/mod.rs` | spill and value-store side of structural edits, `Pin` policy |
| `Token` | `parse/src/tokenizer.rs` span tokenizer, strict and best-effort | the older owned-token tokenizer; `f64` parsing is a parameter |
| `Pretty` | `parse/src/pretty.rs`, `parse/src/parser.rs` span parser (Pratt) | literals and references as values (a parameter `dec`/`shw` pair), volatility, source tokens |
| `Spill` | `engine/spill.rs` locks, `ShimSpillManager`, spill part of `graph/mod.rs`, effects of a formula's result in `engine/eval.rs` | dependency edges, dirty flags, admission budgets, overlay budgets and compaction, formats, deltas and the change log; values are empty, an opaque number or `#SPILL!`; `stamp_cycle_error` (which does give a reservation back) and the older per-vertex path (eval.rs 17560-17760, 22640-22800) |
| `Recalc` | `engine/eval.rs`: `set_cell_value`, `set_cell_formula`, `bulk_set_formulas`, `evaluate_all`, `evaluate_cells` and the demand walk, the static schedule cache, `build_recalc_plan` and its use, the replan loop for computed references; `virtual_deps.rs`; on top of the models `Dirty` and `Sched` | formulas are functions of the values they refer to and of the clock, with declared references (`Formula`, assumed to be honest: `Formula.Fits`); names exist before the first edit; values of array results, spans of `formula_plane`, tables, pending staged formulas, iterative calculation, cancellation, row visibility and the arrow store are left out; the policy for cycles is the static one |
| `Lookup` | `builtins/lookup/lookup_utils.rs` wildcards, `builtins/text/find_search_exact.rs`, `builtins/utils.rs` `text_like` and `criteria_match`, `args.rs` `parse_criteria`, `engine/eval.rs` `compute_criteria_mask`, `criteria_aggregates.rs` COUNTIF, COUNTIFS, SUMIFS; `lookup/core.rs` MATCH, `lookup_utils.rs` exact and approximate search, `lookup/dynamic.rs` the searches of XMATCH and XLOOKUP, `engine/lookup_index_cache.rs` building and asking an index | ranges of more than one column, dates, AVERAGEIFS and the other aggregates, what XLOOKUP returns for the place found, binary search modes of XMATCH, when an index is out of date, argument coercion; case folding, number parsing and number printing are parameters (`Env`); numbers are rationals; arrow's `ilike` is described by `readLike` |
| `Store` | `eval/src/arrow_store/mod.rs`: lanes, overlay fragments, overlays, the overlay cascade, `ArrowSheet` edits, `IngestBuilder`; `eval/src/engine/eval.rs`: the writes of single cells | formats; the memory sizes Arrow reports (a parameter); offsets of 2^32 or more; floats are an arbitrary type with an equality test |
| `Plane` | `eval/src/formula_plane/region_index.rs` (regions, `SheetRegionIndex::query`), `producer.rs` (projections, dirty closure), `placement.rs` (`prepare_domain_semantics`, `span_read_summary_for_domain`), `authority.rs` (`rebuild_indexes`), `eval/src/engine/ingest_pipeline.rs` (`compute_read_projections`) | bounded queries; how formulas are grouped into spans; span evaluation; scheduling; the table of functions is a parameter |
| `eval/src/formula_plane/structural_shift.rs`, `eval/src/engine/eval.rs` 12740-13680 (plans, shift, split and compaction of spans), `producer.rs` 471-556 | `Verif.Plane.Edit` | constants that vary along a span; interning of templates (sharing is a hypothesis); overlays of exceptions; what happens to formulas taken out of a span |
| `eval/src/engine/arena/{data_store,value_ref,scalar,string_interner,error_arena,array}.rs` (values) | `Verif.Arena` | `chrono` and the serial-number conversions are parameters; hash maps of the interners are searches; reference counts and statistics |
| `eval/src/engine/arena/{data_store,ast}.rs` (formulas), `eval/src/engine/sheet_registry.rs` | `Verif.Arena` | hash functions are parameters (any function); table specifiers and kinds of external references are opaque; metadata flags, statistics, source tokens |
| `eval/src/engine/eval.rs` (sheet operations), `eval/src/engine/graph/sheets.rs` | `Verif.Sheets` | sheets as maps from positions to values; a formula is the list of sheets of its references, dependencies are sets of sheets; defined names, tables, 3D references, batches and the log are left out |
| `eval/src/formula_plane/template_canonical.rs`, `placement.rs` (domain, key comparison, slot map, binding sets), `runtime.rs` (domains, literal bindings), `interpreter.rs` (relocated references, literal slots) | `Verif.Template` | formulas as trees with node numbers on constants; floats and errors are parameters with stated laws (`Num.Laws`: printing of bits and errors is injective, exact conversion to integers); labels of a key are an arbitrary text; dates and times as constants, the test that a span does not read its own cells and the counters are left out |
| `eval/src/engine/eval.rs` (arm `SpanShiftPlan::Shift`), `formula_plane/runtime.rs` (`TemplateStore`, `project_through_axis_shift`, `set_template_anchor`) | `Verif.Template.Shift` | stored formulas as a function from their numbers; shifts with rewritten absolute references, splits, compaction, read summaries and the list of dirty cells are left out |
| `eval/src/formula_plane/span_eval.rs` (`evaluate_task`, `parameter_key`, `evaluate_memoized`), `placement.rs` (`value_ref_slot_descriptors`, `residual_relative_axes`) | `Verif.Template.Memo` | operators, functions and cells are a parameter; sampling and thresholds, threads and cancellation are left out |
| `eval/src/builtins/lookup/dynamic.rs` (`SORT`, `SORTBY`, `FILTER`, `UNIQUE`, `SEQUENCE`, `TRANSPOSE`, `TAKE`, `DROP`), `choose.rs`, `array_shape.rs`, `stack.rs` | `Verif.Arrays.Model` | `slice::sort_by` is a parameter (`Sorter`); numbers are rationals, counts unbounded integers; evaluation and coercion of arguments, other array functions are left out |
| `eval/src/builtins/text/` `len_left_right.rs`, `mid_sub_replace.rs`, `find_search_exact.rs` (`FIND`, `SEARCH`), `trim_case_concat.rs` (`TRIM`, `TEXTJOIN`), `extended.rs` (`TEXTBEFORE`, `TEXTAFTER`), `array_text.rs` (`TEXTSPLIT`) | `Verif.Texts.Model` | `str::find`, `str::replace`, `str::match_indices` as their documentation says; `char::is_whitespace` and `str::to_lowercase` are parameters; coercion of arguments, errors among them, fixed-width integers and the functions on bytes are left out |
| `eval/src/interpreter.rs` 985-1250, 1332-1640 (unary and binary operators, `@`, comparisons), `broadcast.rs`, `coercion.rs` (`to_number_lenient`, `to_text_invariant`, `sanitize_numeric`), `engine/used_extent.rs` (policy of evaluation), `reference.rs` 126-183 | `Verif.Ops.Model`, `Verif.Ops.Ranges` | floats are rationals with infinities and NaN, without rounding and signed zeros; reading and writing of numbers, dates and debug texts are parameters; formats of results are left out; the used rows and columns are parameters |
| `eval/src/builtins/lambda.rs`, `interpreter.rs` 65-115, 229-254, 578-850, 915-935, 1268-1300 (local names), `traits.rs` 402-460, 535-650, `engine/refs.rs` 151-262, `engine/ingest_pipeline.rs` 332-385 | `Verif.Local.Model` | references, values and builtin functions are opaque; functions that return references, the operator `:` and literal arrays are left out; ASCII upper case is `Char.toUpper` |
| `eval/src/engine/eval.rs` 24654-25240, `engine/live_edges.rs`, `engine/live_graph.rs`, `engine/convergence.rs` | `Verif.Scc.{Model,Live,Conv}` | a formula is a program of reads of members, other cells are constant; cancellation, deltas, telemetry and the restoring of values after structural edits are left out; differences of numbers are exact |
| `eval/src/builtins/engineering.rs` 485-1810, `math/numeric.rs` 2274-2790 | `Verif.Base` | arguments after coercion and truncation to integers; the trimming and upper case of ARABIC and of the texts for HEX2DEC are left out |
| `eval/src/engine/row_visibility.rs`, `engine/eval.rs` 1395-1546, 4007-4009, 12004-12140, 12252-12323, `aggregate.rs` 1392-1402 | `Verif.Rows` | sheets by number; the limit of the cache evicts everything; other parts of a row insertion are in `Verif.Adjust` |
| `eval/src/builtins/math/aggregate.rs` 67-390, 1325-1834, `math/reduction.rs` 70-300, `math/criteria_aggregates.rs` 1381-1535 | `Verif.Agg` | rational numbers, no rounding; arguments after `resolve_aggregate_argument`; masks as given by `Verif.Rows`; reading texts as numbers and square roots are parameters |
| `eval/src/engine/eval.rs` 3579-3680, 14929-14994, 22988-23137, 23898-23973, `lookup_index_cache.rs` | `Verif.Snap` | a sheet is the list of its cells that are not empty; the scan of chunks is left out; one thread; an index is the list of values it was built from (its search is in `Verif.Lookup.Exact`) |
| `eval/src/builtins/stats/mod.rs` 31-196, 248-445, 485-725, 1131-1305, 1348-1735, 2454-2510, 7373-7615, 7663-7742 | `Verif.Order` | numbers are rational or `nan`, no rounding; arguments other than the data are numbers already; `select_nth_unstable_by` and `sort_by` by contract |
| `eval/src/builtins/financial/tvm.rs` without RATE, IRR, XIRR, XNPV, MIRR; `depreciation.rs` | `Verif.Fin` | real numbers (rational for DOLLARDE, DOLLARFR) without rounding, infinities or `nan`; arguments are numbers already; periods of CUM*, EFFECT and NOMINAL are whole |
| `eval/src/builtins/financial/tvm.rs` 672-769, 1176-1346, 1389-1467, 1512-1606, 1889-2040, 2083-2240 | `Verif.Solve` | real numbers without rounding, infinities or `nan`; values and dates are lists of numbers, as many dates as values |
| `eval/src/builtins/math/numeric.rs` 214-226, 284-557, 612-646, 708-1058, 1528-1537, 1591-1616, 1671-1769, 1901-1950, 2239-2271, 2841-3051 and `combinatorics.rs` 72-105, 175-323, 390-434, 501-541, 590-703 | `Verif.Round` | rational numbers without rounding; floats overflow to infinities; arguments are numbers, digits and counts are truncated already |
| `workbook/src/backends/calamine/formula_replay.rs` 63-65, 304-348, 395-483, 507-1099, 1149-1233 | `Verif.Spool` | no failures of the file system; the budgets other sheets use up are part of the limits; UTF-8 validity and `expand_shared_formula_into` are parameters |
| `workbook/src/backends/calamine/compressed_evidence.rs` 10-540, 555-855 | `Verif.Evid` | without `source_order`, the counters and the report; bytes are natural numbers; families are finished in the order they were met, which only matters for the limit of bytes |
| `parse/src/structured_ref.rs` (all), `parse/src/parser.rs` 65-131, 292-351, 1091-1109, 1361-1399 | `Verif.Struct` | characters instead of bytes; errors without messages; the choice between a table and a cell reference (780-820) is not modelled |
| `engine/graph/tables.rs` (all), `graph/mod.rs` 2383-2530, `ingest_pipeline.rs` 579-672, `eval.rs` 9727-9806, 24305-24421, `inspect.rs` 1443-1588 | `Verif.Tables` | `to_lowercase` is a parameter; numbers are not bounded; vertices and dependencies of tables, external source tables and the reading of cells are not modelled |
| `formualizer-workbook/src/backends/csv.rs` 112-135, 237-383, 424-449, 506-604, 731-866, 890-942 | `Verif.Csv` | the `csv` crate (quoting, delimiters, trimming), the encoding, streams and paths are not modelled; floats and dates are printed and parsed by parameters; row and column numbers are not bounded |
| `engine/resource_ledger.rs` 38-155, 217-271, 274-383, 385-393, 445-761 | `Verif.Ledger` | the clock is an argument; semantic and optimization budgets, the request's number and the rendering of errors are left out; `usize` has 64 bits; where the engine calls the ledger is not modelled |
| `graph/editor/transaction_manager.rs` 1-258, `transaction_context.rs` 1-203 | `Verif.Trans` | the graph and its inverses are parameters (for cells: `Verif.Undo`); compound marks have no effect; metas, sequence numbers and groups of the log are left out; unbounded sizes |
| `builtins/reference_fns.rs` 94-897, `lookup/reference_info.rs`, `lookup/address.rs`, `engine/eval.rs` 23370-23492 and 24045-24180 | `Verif.RefFn` | finite numbers as rationals; open ranges by their view, given; sheets exist; tables, names and external books as reference arguments are left out; anchors of INDEX and OFFSET results are left out |
| `builtins/logical.rs` 205-498, `builtins/logical_ext.rs` 56-665, `lookup/choose.rs` 67-159, `traits.rs` 157-187, 372-430, 793-1011, `interpreter.rs` 1205-1266 (`&`) | `Verif.Logic` | finite numbers as rationals with exact differences; shapes, formats, messages and pending values are left out; what a reference or expression gives is a parameter; how numbers, errors and arrays are written under `&` are parameters |
| `engine/eval_delta.rs` 118-345, `engine/eval.rs` 16307-16357, 25357-25492, 25692-25718, 25788-25910 | `Verif.Delta` | natural numbers for `u32`; reserving memory succeeds; temporal values and their formats are left out; that writes are read back as stored (no masking by another layer) is part of the model; a commit that is refused after recording is left out |
| `builtins/stats/mod.rs` 31-105, 2514-2803, 5279-5655, 6041-6340, 6730-6855, `math/numeric.rs` 3053-3290 | `Verif.Pairs` | finite floats as rationals with exact arithmetic, roots real; arguments are ranges; the standard errors of the coefficients and F of LINEST and GROWTH are left out |
| `backends/json.rs` 196-262, 408-540, 580-665, 711-807, `load_limits.rs` | `Verif.Json` | `chrono` formats and `serde_json` from their documentation (no leap seconds, no blanks); sheets and names as partial functions and lists; tables, merged cells, sources and hidden rows are left out |
| `builtins/database.rs` | `Verif.Dbase` | exact numbers, roots real; parsing and matching of criteria, folding of letters and texts as numbers are parameters; the database is its columns |
| `builtins/engineering.rs` | `Verif.Engin` | bitwise functions, CONVERT, COMPLEX, IMREAL, IMAGINARY, IMABS, IMCONJUGATE, IMSUM, IMSUB, IMPRODUCT, IMDIV with exact numbers; printing and reading of floats are parameters with five laws (`Lawful`), shown to be consistent (`unary_lawful`); bases are C82; Bessel, error and transcendental functions not modelled |
| `engine/used_extent.rs`, `engine/virtual_deps.rs` 289-387 | `Verif.Ops.Extents` | policies of virtual dependencies and of the graph; used rows and columns are hints |
| `engine/graph/range_deps.rs` 305-553, `engine/ingest_builder.rs` 630-690 | `Verif.SelfRef` | names that stand for ranges are not followed |
| `builtins/math/criteria_aggregates.rs` 88-690, `engine/range_view.rs` 67-182, 286-302, 1043-1152 | `Verif.SumIf` | criteria on numbers; other kinds of values for one column in `Verif.Lookup.Criteria`; sums of rationals |
| `builtins/math/aggregate.rs` 474-556, `broadcast.rs` | `Verif.SumProd` | rationals; reading texts as numbers is a parameter; the final check for finite results is left out |
| `engine/formula_source.rs` 66-95, 155-389, 392-787, 827-875; `backends/calamine.rs` 655-706 | `Verif.Route` | maps as lists with one entry for each key; the unstable selection of the middle row by sorting; the spool itself is C90 |
| `datetime/date_parts.rs` 28-86, 230-265, 340-420, 480-490; `datetime/weekday_workday.rs` 238-332; `financial/bonds.rs` 46-160 | `Verif.Days` (Count, Frac, Week) | exact fractions instead of floats; dates as `Verif.Dates`; chrono's `iso_week` by its documentation |
| `financial/bonds.rs` 46-228, 350-364, 630-690, 830-905, 962-1218 | `Verif.Days` (Coupon, Price) | real numbers instead of floats; loops with fuel, shown to end before it is used up |
| `formualizer-sheetport/src/layout.rs` 13-22, 51-193, 240-359; `runtime.rs` 166-253, 628-650, 774-793, 846-890, 939-990, 1081-1134, 1175-1214, 1229-1305; `batch.rs` 282-374 | `Verif.Port` | one sheet; columns as numbers; rows as lists in the order of columns; evaluation, validation and white space are parameters; `Workbook::action` applies all writes; cancellation and rebuilding of plans left out |
| `formualizer-sheetport/src/validation.rs` 41-403, 412-493; `runtime.rs` 614-626, 1316-1400; `value.rs` 43-97; `binding.rs` 387-413 | `Verif.Contract` | finite rationals for numbers; names as numbers, maps as lists of pairs; lists of violations as whether there are any; serials of dates, printing and regular expressions are parameters |
| `eval/src/builtins/text/char_code_rept.rs` 86-140, 205-275, 407-441; `extended.rs` 105-114, 180-201, 267-281 | `Verif.Chars` | texts as lists of code points; numbers already truncated; coercion of arguments and errors among them left out; `usize` of 64 bits without overflow checks (with them, REPT panics for every overflow) |
| `eval/src/rng.rs` 6-50; `traits.rs` 1776-1789; `function.rs` 138-146; `builtins/random.rs` 68-79, 219-248; `builtins/lookup/dynamic.rs` 50-66, 1404-1488 | `Verif.Rng` | `SmallRng` and what it draws are a parameter (trusted: `gen_range` stays in its range, `gen` in [0, 1)); exact numbers for floats; RANDBETWEEN without overflow checks; arguments already evaluated |
| `common/src/numfmt.rs` | `Verif.NumFmt` | texts as lists of characters, white space as a parameter; the cache of built-in formats as the function it caches |
| `sheetport/src/runtime.rs` 292-317, 1400-1512; `eval/src/engine/eval.rs` 2984-2988, 3889-3908 | `Verif.Options` | building a clock and the check of threads are parameters; cancellation and deadlines are part of the evaluation |
| `eval/src/builtins/lookup/legacy.rs` 28-47, 178-326 | `Verif.Lookup.Legacy` | resolving references; dates; values as in `Verif.Lookup.Match` |
| `eval/src/builtins/text/value_text.rs` 299-304, 341-437 | `Verif.TextFn` | `{:.p}`, `to_string` of floats are parameters; reading the number from text is not modelled |
| `eval/src/builtins/text/value_text.rs` 439-472 | `Verif.TextFn.Dates` | the year, month and day of a serial number are a parameter; numbers written have at most the digits padded to; serial numbers from 0 on |
| `eval/src/builtins/text/value_text.rs` 188-222 | `Verif.TextFn.NumberValue` | `parse::<f64>` and white space are parameters; infinities and not-a-number are left out |
| `common/src/date_serial.rs` 70-107, `eval/src/builtins/datetime/date_value.rs` 12-31, 118-120 | `Verif.TextFn.DateValue` | `from_ymd_opt`, ISO dates, names of months, the form with spaces and white space are parameters; the serial is left out |

Line numbers: citations that name a function were compared by script with where the function begins and ends in /repo.
Some 80 had the right function and wrong lines (off by 3 to 30, most in `Token/Model`, `Plane/Index`, `Plane/Project`
and `Template`) and were corrected. Of the 27 that the script still reports, those whose lines were read
cover several functions or a wrapper with the function it calls. Citations that name no function,
and the anchors in `properties.jsonl`, were not compared.

## Findings

Where the code does not have the property, the negation is a theorem with a witness. All concern the pinned commit and were found by
reading; nothing was run.

* C05 `Coord::try_from` a signed value truncates with `as u32` before its range check: 2^32 aliases 0 (`tryFromI64_aliases`).
* C06 a two-sheet prefix whose name has a tab or line break is not quoted and does not read back.
* C10 a vertex that depends on itself only virtually is not reported as a cycle (`virtual_self_dependency_missed`).
* C11 `splice_after` loses the topological order; a three-edge history closes a cycle unnoticed (`splice_breaks_order`, `cycle_accepted`);
  once over the visit budget, insertion recurses without end (`budget_diverges`).
* C12 the bulk loader forgets vertices registered before; their edges vanish at the next rebuild (`bulk_load_forgets_vertices`).
* C14 bulk-loaded formulas over ranges such as `A:C` or `A:3` are not found by edits in all their columns.
* C20 an ungrouped edit after a compound, or after a redo, cannot be undone; the redo stack survives new edits.
* C21, C22 reversed ranges are not shifted; ranges with only an end bound are mishandled by deletion; inserting can panic.
* C24 `a+(b+c)` prints without parentheses (value may change in floating point, and the tree does); `(-a)%` prints `-a%`; a union as a
  function argument prints as two arguments; `F(,)`-like single omitted arguments are dropped; `(A1):(B1)` prints `A1:B1`; the
  intersection of two names prints as text that does not parse; a range in another workbook (`'[1]S'!A1:B2`) is split at its colon.
* C25 `=S!#REF!` loses the sheet prefix.
* C29 a local sheet name beginning with a bracketed part reads back as external.
* C30 datetimes before 1899-12-31 with a time come back one day late. C31, C32 results outside the calendar are not refused and 32-bit
  arithmetic wraps. C34 WORKDAY with the most negative count does not move. C35 DATEDIF "MD" can be negative.
* C37 copying clamps references at the first row or column; computed calls and arrays are copied unadjusted.
* C38 moving an overlapping block loses cells, changes references inside the moved formulas.
* C39 deleting the first or last row or column of a named range makes the name `#REF!`.
* C40 after a deletion, tombstones are shifted with live cells and can take over a live cell (`tombstone_hijacks_cell`).
* C28 an interrupted spill commit restores values and ownership but not the formulas it overwrote (`fault_loses_formula`).
* C44 an array refused because a cell is in its way keeps its reservation; since reservations are refused to their own holder too, the
  formula shows `#SPILL!` for ever, even when the obstacle is gone and the formula is retyped (`refused_for_ever`), and other arrays over
  those cells are refused (`leftover_blocks_others`). In a parallel layer an array over a formula of the same layer makes the whole
  evaluation return an error (`parallel_layer_aborts`); so does a value typed into a cell of an array (`typed_over_child_aborts`). A formula
  typed there is deleted silently (`typed_formula_deleted`). Row insertion leaves the ownership record behind, and a formula at the old
  place is deleted (`insert_row_deletes_formula`). A value typed over the array formula leaves the rest of the array showing
  (`typed_over_anchor_keeps_children`).
* C46 evaluating a cell of a cycle that goes through a name replaces the error in the name by a value (`name_cycle_wrong`).
* C47 a recalculation plan built on an up-to-date workbook evaluates range formulas before the formulas in their range, and clears the
  flags, so that later full recalculations do not repair the values (`plan_clean_wrong`); names are not part of plans (`plan_name_wrong`).
* C48 when a computed reference moves during `evaluate_all`, the formula is evaluated again but its dependents are not
  (`replan_wrong`); `INDIRECT` of its own cell is not reported as a cycle (`self_indirect_wrong`).
* C49 edits through `edit_with_logger`, undo and redo do not mark the topology, so a cached schedule of the old formulas is used
  (`logged_edit_wrong`); a name defined by a volatile formula is never recalculated (`volatile_name_wrong`).
* C50 the matcher of single criteria takes `?` for one byte and does not know `~`; the matcher of whole columns does not quote `%`, `_`
  and `\`, so the criterion `50%` is met by `50 apples` (`readLike_percent_wrong`).
* C51 SEARCH does not know `~`, and ignores case for ASCII letters only; with nothing to find, FIND and SEARCH ignore the start.
* C52 COUNTIF counts differ between loaded and typed cells showing the same values (`countIf_storage_wrong`); blanks below the used part of
  the sheet are not counted (`countIf_beyond_wrong`); COUNTIFS depends on the order of its criteria (`countIfs_order_wrong`); SUMIFS takes
  rows past the used part of a criteria column to meet `<5` (`sumIfs_tail_wrong`).
* C53 `>b` is read as equality with the text `>b`, and `=a*` loses its wildcard (`parseCriteria_wrong`).
* C54 numbers within 1e-12 count as equal, so entries slightly out of order pass the check of the order (`match_tolerance_wrong`); texts that
  read as numbers are checked for order as numbers but searched as texts (`match_numeric_text_wrong`); an error among the entries is passed over,
  although the comment at core.rs 31-33 says it is returned (`match_error_skipped`).
* C55 exact lookups differ between arrays and ranges (`exact_array_range_wrong`) and between the first three calls and later ones
  (`exact_cache_wrong`); XLOOKUP with match mode -1 or 1 is #N/A on entries out of order where XMATCH finds the place
  (`xlookup_unsorted_wrong`); the next smaller text is never found (`xmatch_text_wrong`).
* C56 writing a single cell twice in an overlay that also holds a batch takes the bytes of the first value off twice; clearing then reports
  too few bytes as freed, so the engine's total drifts upwards and the memory budget is exceeded early (`bytes_drift_wrong`). In a run of
  zeros, a negative zero reads as the first zero of the run (`run_zero_wrong`).
* C58 inserting more rows at once than the chunk size at the end of a sheet makes a last chunk longer than the size growth assumes; the next
  growth gives part of its rows to new chunks, and the values there are lost (`big_insert_wrong`). With rows but no columns, a second row edit
  empties the chunk map and the next write panics (`no_columns_wrong`, `columns_gone_wrong`). `set_delta_overlay_cell_raw` leaves a computed
  entry under the user's; compaction then folds the user's entry into the base and the computed one shows (`raw_entry_wrong`). Read in the
  code, not proved: undoing an action that turned a value into a formula restores the value by that function.
* C60 a projection through a whole-column reference is labelled exact but marks the whole span. The labels `Conservative` and `Unsupported` cannot
  arise for the entries that promotion makes; the code that handles them marks the span concerned but not the spans that depend on it.
* C61 deleting rows inside a span. The span is shortened and keeps its stored formula, so references that should move by different amounts
  before and after the deleted rows do not. `=B1` at `C3`, filled down to `C10`, row 5 deleted: what was `C6` and read `B4` is now `C5`
  and reads `B3`, although `B4` is still there (`compact_misreads_offset`). `=A3*SUM($B$1:$B$9)` keeps `$B$9` (`compact_misreads_absolute`). `=Data!A3` reads the wrong row of
  the other sheet below the gap (`compact_misreads_other_sheet`).
* C61 `origin_through_delete` moves the origin of the stored formula when it lies at or after the deleted rows, but a shortened span keeps its
  formula unchanged. After deleting rows 1-2 and then row 2, `=A3` is read from the wrong origin (`compact_misreads_origin`).
* C61 cutting a span in two rewrites the stored formula as if its origin were that of the span; when the formula was shared with a span that
  started elsewhere, the halves read other cells (`split_misreads_shared`).
* C62 `store_value` of an integer outside 28 bits panics: the index of the integer arena carries bit 31, and `ValueRef::large_int` asserts
  that it is below 2^28 (`large_int_panics`). The integer is first cut to 32 bits, so 2^32 + 5 is stored as 5 (`wide_int_wrong`). Integers of
  cell values are turned into numbers before storing, but not inside arrays.
* C62 days and times of day are read back as date-times, errors without context and payload, arrays with rows of different lengths but the
  right number of elements in another shape, and `[[]]` as `[]`.
* C63 a function of 65536 or more arguments loses arguments in the store (the count is cut to 16 bits, `long_call_cut`); an array constant of
  65536 or more elements panics (`big_array_panics`); the call of an expression's value is stored as an error (`call_lost`).
* C64 the 65537th sheet number wraps to 0, and the new name leads to the first sheet (`too_many_sheets`). The registry itself lets a removed
  sheet be renamed and so come back (`rename_revives`); `DependencyGraph::rename_sheet` refuses this first. The same function returns `Ok`
  without renaming when the new name differs from the old one only in case (graph/sheets.rs 260-266).
* C65 the storage of values is searched by exact name, the registry without regard to case, and `Engine::rename_sheet` renames the storage
  first and rolls back by name. Renaming a sheet to the name of a sheet stored before it is refused but exchanges the values of the two
  (`refused_rename_swaps`, reachable through `Workbook::rename_sheet`); renaming a sheet that does not exist to an existing name makes that
  sheet lose its values (`rename_missing_loses`); a renaming that only changes case returns `Ok`, leaves the registry alone and makes the
  values unreadable (`case_rename_loses`); values written under another case go to a storage that formulas do not see
  (`write_other_case_unseen`), and a copy taken under another case is empty (`duplicate_other_case_empty`).
* C66 when one of two missing sheets comes back, `rebuild_formula_dependencies` fails on the other and drops all edges, so that a second
  removal of the first is not noticed, and the formula is broken for ever (`half_healed_forgets`); a removed sheet that comes back because a
  value is written to it does not restore formulas (`touched_not_healed`), nor one that comes back in another case (`other_case_not_healed`).
* C67 constants are substituted by node of the formula store, and equal texts (also booleans) of one formula are one node. The span
  of `=IF(A1="x","x","y")` in B1 and `=IF(A2="x","z","y")` and so on in B2:B100 has three constants but two nodes, so that B2 computes
  `=IF(A2="z","z","y")` (`shared_node_wrong`); the formula that is shown for B2 is the right one, since printing walks the tree.
* C68 two ways in which constants change when a row is inserted above. (1) `set_template_anchor` moves the origin of the stored formula, but
  nothing moves the `origin_row`/`origin_col` of an arithmetic table of constants: `=B5*10`, `=B6*11`, … in C5:C104 become `=B6*11`,
  `=B7*12`, … (`rising_wrong`). (2) `intern_template_parameterized` gives a span the template of an earlier span with a formula of the
  same shape; the table of constants has its own stored formula until the first shift, which replaces it by that of the template, whose nodes
  its slot map does not know: with `=A1*15` in B1:B100 and `=C1*25` in D1:D100, after an insertion above, D2 computes `=C2*15`
  (`shared_template_wrong`). Spans whose cells have one value need no hundred cells: `=$A$1*15` in B5:B6 and `=$A$1*25` in D5:D6 suffice, with a
  row inserted between the first and the fifth (`shared_one_wrong`).
* C69 two ways in which a cell of a span differs from the same formula alone. (1) The format of a result is recorded for the first cell of a
  group only (span_eval.rs 296, 735), so with one date in A1:A100 and `=A1+1` in B1:B100, `get_cell_value` gives a date for B1 and a number
  for B2 (`dates_lost`); the same in a span of one value (`dates_lost_fixed`). (2) The target of `SUMIF` counts as the value of the cell that
  is written (template_canonical.rs 1026-1045), but is read as far as the range goes (criteria_aggregates.rs 126-132): with
  `=SUMIF($A$1:$A$2,1,B1)` in C1:C100, equal values in B1:B100 and another value in B101, C100 gets the value of C1 (`short_target`).
* C70 `SORT` does not sort some columns. Keys that cannot be compared count as equal (dynamic.rs 1005-1010, 1033-1038), so 2, `a`, 1 stay as
  they are (`mixed_unsorted`). Texts that read as numbers compare as numbers with each other and as texts with others: `10` < `1a` < `9` < `10`,
  so no order is sorted (`texts_unsorted`), and the result depends on the order of the rows (`texts_order_matters`). Numbers less than 1e-12
  apart count as equal (`close_unsorted`). In all three cases the comparison is not a total order; `slice::sort_by` of Rust 1.81 and later may
  panic then for longer slices. Empty cells are sorted as 0 (`blank_between`), and a column number below 1 counts as 1 (`index_below_one`).
* C71 a row of marks in `FILTER` keeps all rows or none and never filters columns (`filter_one_row`, `filter_columns_wrong`); an error
  among the marks drops its row (`filter_error_ignored`). `UNIQUE(a,TRUE)` returns the distinct columns as rows (`unique_cols_wrong`).
* C72, other than Excel: `TAKE` of more lines than there are is `#VALUE!` (`take_beyond`), `VSTACK` of different widths is `#VALUE!`
  (`vstack_widths`).
* C73, other than Excel: `REPLACE("abc",10,1,"x")` is `abc` (`replace_beyond`); `FIND("","abc",3)` is 1 (`find_empty`); `SEARCH("~?","a?")` is
  `#VALUE!` (`search_tilde`) and so is `SEARCH("É","é")` (`search_accents`); `TRIM` turns line breaks into spaces (`trim_newline`).
* C74 `TEXTSPLIT` without regard to case slices the text at places of the text in small letters (array_text.rs 170-205). Where these have
  other lengths in bytes it slices inside a character and panics, for example for the Kelvin sign followed by `,b` (`textsplit_panics`).
  Empty rows are lost although `ignore_empty` is FALSE: `TEXTSPLIT("a;;b",",",";")` has two rows (`textsplit_empty_row`).
* C75, other than Excel: `{1,2}&"x"` is the debug form of the array followed by `x` (`concat_array`); `#DIV/0!&"x"` is a text instead of the
  error (`concat_error`); arrays of unfit shapes give one `#VALUE!` instead of `#N/A` in the missing cells (`broadcast_unfit`); `0^0` is 1 (`power_zero`).
* C76 The comparisons read texts as numbers and numbers as texts. So `1="1"` and `TRUE=1` are TRUE, and `<` has a circle:
  `9<10`, `10<"1a"`, `"1a"<9` (`holds_cycle`). In Excel a number is always smaller than a text.
* C77 `@A:A` below the last used row of the column is `#VALUE!` (`at_column_below`), and if only A1 is used, every row gets the value of A1
  (`at_column_single`), because the used part is one cell and single cells are returned before rows are looked at (interpreter.rs 1052-1054).
  A range reference with both ends missing is read up to the used rows of its first column only (`extent_both_open`).
* C78, C79 `reference_attempt` (traits.rs 535-565) takes every name for one of the workbook, also a local one. So `=LET(r,A1:A3,SUM(r))` is
  `#NAME?`, and if the workbook has a name r, its sum, without a dependency on it (`let_range_wrong`, `let_is_value_wrong`).
* Noted while reading lambda.rs: `=LAMBDA(x,x+1)(41)` is shown with the value 42 in the documentation of `LAMBDA`, but calls of formulas are stored as
  an error value (data_store.rs 440-446). A builtin function wins over a local one of the same name. A local function cannot be passed to another
  one: as an argument it is `#CALC!`.
* C80 `evaluate_scc_unit` (eval.rs 24981-25050) takes a cycle among the reads of the first pass for a real one, though these reads were decided
  by values of the past or by empty cells. `A1 = B1`, `B1 = IF(C1, 2, A1)`, `C1 = IF(TRUE, 1, A1)` has the solution 2, 2, 1 but A1 and B1 are
  `#CIRC!` at the first calculation (`circ_without_cycle`); starting from the solution it stays. So the result depends on the history.
* C80 After stamping, the other members run once in the order of their earlier reads (eval.rs 25031-25046). `C1 = IF(ISERROR(A1), D1, 0)`,
  `D1 = IF(ISERROR(A1), 5, 1)` with A1 and B1 on a cycle gives `C1 = 1`, `D1 = 5` (`stamped_solves_wrong`).
* C81 An infinite value never converges (`close_self`): a loop that reaches one runs to the limit of iterations.
* C82 `roman_apply_form` (numeric.rs 2301-2323) rewrites parts of the text without their digits: `IX` becomes `IV` in form 1, so 4 and 9 are
  written alike, 40 and 90 too, and `ARABIC(ROMAN(900,1))` is 950 (`forms_wrong`).
* C82 Smaller: `DECIMAL` reads signs (`"-5"` is -5); `BASE` has no limit for its minimal length and inserts zeros one by one;
  `DEC2BIN` and its kind give `#NUM!` for negative numbers with fewer than ten places, which Excel ignores; `BIN2DEC("")` is 0.
* C83 Undo or rollback of inserted rows (`apply_arrow_undo_batch`, eval.rs 15858-15871) does not move hidden rows back, since only
  `SetRowVisibility` events are inverted (12105-12116): row 5 hidden, one row inserted above, undo: row 6 stays hidden and row 5 is visible
  (`undo_insert_wrong`); the same if the row was hidden in the undone action (`undo_hide_insert_wrong`).
* C83 `row_visibility_version` restarts at 0 when nothing is hidden any more, so one version stands for different states (`version_repeats`).
* C83 Smaller: shifted rows saturate at `u32::MAX`, where several rows become one; `set_row_hidden` accepts rows beyond the sheet.
* C84 `SUM` of a range with several errors gives the first one of the first column with one, chunk by chunk, `SUBTOTAL(9, ..)` the first row by
  row; so they differ, and the result of `SUM` changes with the chunks of the same cells (`error_by_storage`).
* C84 `SUBTOTAL(2, ..)` and `AGGREGATE(2, 0, ..)` give the error of a cell, where `COUNT` (and Excel) count (`subtotal_count_wrong`).
* C84 `COUNTBLANK` counts only rows that the sheet stores: with one stored row `COUNTBLANK(A1:A10)` is at most 1 (`countBlank_below_wrong`;
  `RowChunkIterator`, range_view.rs 84-106).
* C85 Evaluation writes results and spilled cells without a new data snapshot (eval.rs 25358-25490), while used rows and columns are kept by
  snapshot. With `=SEQUENCE(5)` in A1 and `=SUM(A:A)` in C1 the extent of A:A is asked for when dependencies are collected
  (virtual_deps.rs 300-340), before the spill; the same extent, one row, is used afterwards until the next edit (`spill_stale`).
* C85 Only a volatile formula in the range itself keeps a lookup range from being indexed (eval.rs 3579-3604). If its formulas merely depend on
  a volatile cell, a second `evaluate_all` without an edit gives new values and still searches the index of the old ones (`index_stale`).
* C85 Lookup indexes are kept by snapshot and never dropped (`index_kept`), so after enough edits the cache is full of indexes that nobody can ask
  for, and no range is indexed any more (`index_full`).
* C86 A text argument is read with `parse::<f64>`, which accepts `nan` (locale.rs 24-32), and numbers are compared with `partial_cmp().unwrap()`
  (stats/mod.rs 122-140, 298-301, 1159, 1269, 7436, 7578, 7701), so `=MEDIAN("nan",1)` panics (`nan_panics`); the comment in lines 112-120 says
  that only finite numbers are collected.
* C86 RANK and MODE take numbers within 1e-12 as equal, whatever their size: `=RANK(1E-13,{1E-13,3E-13})` is 1 (`rank_small_wrong`).
* C86 Of one number QUARTILE.EXC is #NUM! for every quartile, while PERCENTILE.EXC and MEDIAN give the number. An error as `k` of LARGE and SMALL
  gives #NUM! and not the error (stats/mod.rs 509-516).
* C87 CUMIPMT and CUMPRINC take the interest as positive and the payment as negative and subtract one from the other (tvm.rs 1720-1721, 1835-1841), so
  the principal is too large by twice the interest and the balance falls too fast: CUMPRINC over all periods of a loan is always more than the loan
  (`cumprinc_wrong`), CUMIPMT has the other sign than IPMT and is wrong from the second period on (`cumipmt_wrong`). The example in the
  documentation, `=CUMPRINC(0.06/12,360,300000,1,12,0)`, has the wrong result of the code. Both compute the payment as if it were due at the end of the period
  (`cum_sum` for either type).
* C87 IPMT and PPMT with type 1 take the interest on the balance before the payment, too large by the factor 1 + rate (`ipmt_due`), so the principal parts do not
  add up to the loan (`ppmt_due_wrong`).
* C87 DOLLARDE rounds the numerator to a whole number: DOLLARFR(1.1,16) is 1.016, DOLLARDE of it 1.125 (`dollar_wrong`).
* C87 DB accepts the period after the last also with 12 months in the first year, and takes there what is missing to the salvage value (`db_residual`).
* C88 `=IRR({-100,50})` is #NUM!, though `=IRR({-100,51})` is -0.49 and -50% is a rate at which the flows are worth 0: Newton's method leaves the domain in the first step, and the
  search for a change of sign (tvm.rs 1241-1257) passes over a value of exactly 0 at one of its rates (`irr_half_wrong`).
* C88 RATE with type 1 leaves the derivative of the factor 1 + rate out (tvm.rs 743-745), so it is not Newton's method there and needs more rounds (`rate_deriv_due`).
* C89 `=ROUND(5,309)` and `=ROUND(5,-400)` are not a number, not 5 and 0: the scale `10f64.powi` overflows (numeric.rs 390-395), and nothing checks the result as the operators do; `=ROUND(5,308)` is infinite
  (`round_nan`, `round_inf`). The same holds for ROUNDDOWN, ROUNDUP and TRUNC. Digits of -1E10 saturate to the least `i32`, whose `abs` overflows.
* C89 `=EVEN(1E19)` is -9223372036854775808 in a release build and panics in a debug build; `=ODD(1E19)` is smaller than 1E19 (numeric.rs 1671-1769, `even_wrong`).
* C89 `=LCM(9999999989,9999999988)` overflows `u64`: a panic in a debug build, a wrong number in a release build (combinatorics.rs 289-295, `lcm_wrong`).
* C89 `=COMBINA(0,1)` should be 0. The number of rounds is -1 as `u64` (combinatorics.rs 696): a debug build panics, a release build loops 2^64 - 1 times (`combina_zero`).
* C89 `=MULTINOMIAL(1E19,1E19)` overflows the sum (numeric.rs 1924, `multinomial_wrong`). COMBIN and PERMUT have no bound on the number of rounds: `=PERMUT(1E18,1E18)` does not end in practice.
* C90 (noted) A shared formula whose index has no anchor anywhere in the sheet is dropped without an error (formula_replay.rs 1210-1216: it stays in `pending`), so the cell keeps its cached value as a constant.
  A second anchor with the same index takes over for the cells after it. A write to the file that fails half way leaves bytes that the count of bytes does not include; later records then follow them.
* **Names of columns are printed without escapes** (C92, `colon_misread`, `hash_misread`, `bracket_unreadable`, `apostrophe_misread`, parser.rs 300-301 and 1097-1101). The reader undoes apostrophes, the printer puts none: `T[[a:b]]`, one column, is printed `T[a:b]`, two columns; `T['#Data]` is printed as the data body; `T[it''s]` is printed as the column `its`; `T[a'[b]` is printed as text that is no reference.
* **The columns of the current row from `a` to `b` are read as one column** (C92, `at_range_misread`, structured_ref.rs 479-501). `T[@[a]:[b]]` is read as the column whose name is `[a]:[b]`, and an item `[@a]` in a combination makes a combination inside a combination, which is printed as a column called `[@],[a]` (`nested_misread`).
* **Tables stay where they are when rows or columns are inserted** (C93, `insert_loses_row`). The range of a table is written by `define_table`, `update_table` and `delete_table` only (graph/tables.rs 75-189); insertions and deletions move cells, names and references but not tables, so after an insertion above a table its header row is read as blank or foreign cells, its header as data, and its last row is lost.
* **The inspection of structured references differs from their evaluation** (C93, inspect.rs 1443-1588). Column names are compared ignoring the case of ASCII letters only, so a column `É` referred to as `é` is read by the formula and not reported (`inspect_misses`). The headers or totals of a column are reported as its data (`inspect_headers_as_data`); data with totals are reported as the last row of data and headers with data as the data (`inspect_union_lost`); in the row of totals nothing is reported though a cell is read (`totals_row_differs`). None of these combinations can be evaluated by a table's name (`combinations_unread`, `named_row_unread`).
* **The same selection is an error as a target** (C93, `target_differs`, eval.rs 9778-9793). Columns named from right to left are read by a formula and refused as a target; the data of a table with no rows of data are empty for a formula and the header for a target.
* **The totals of a table of one row at the top of a sheet are read as data** (C93, `totals_read_as_data`, eval.rs 24326-24330): `saturating_sub` keeps row 0.
* **A CSV save that fails destroys the file** (C94, `failed_save_truncates`, csv.rs 346-359). `File::create` empties the file before the first record is formatted. With `CsvArrayPolicy::Error`, the default, one array anywhere in the sheet makes the save fail after the old contents are gone; the rows above the array may remain.
* **Large numbers come back from CSV as texts** (C94, `large_number_lost`, `least_int_lost`, csv.rs 769-809). `f64::to_string` prints no exponent, so a number such as 1e300 is written as a row of digits; on reading the digits do not fit an `i64` and, having no point and no `e`, are not tried as a float. `i64::MIN` is written and read as a text because its digits are parsed before its sign is applied.
* **A value written to row or column zero of a CSV workbook is accepted and never saved** (C94, `row_zero_not_saved`, csv.rs 531-543). Clearing does not take back the bounds, so cleared rows at the end are saved as blank records (`clear_keeps_bounds`).
* **The shares of the scratch memory are not separate** (C95, `share_taken`, `sources_starved`, resource_ledger.rs 549-639). The limits of the schedule (half), of the sources of the graph (35 hundredths) and of the spills are all compared with one counter, the scratch memory in use for any purpose. When the schedule has taken 35 hundredths of the memory, as it may, every reservation for the sources of the graph is refused though their share is untouched and the memory would suffice. In the same way the limit of the mixed cache is compared with everything retained (resource_ledger.rs 575-600).
* **The share of the sources shrinks for very large envelopes** (C95, `share_overflow`, resource_ledger.rs 235): `saturating_mul(35) / 100` is at most 2^64/100; an envelope meant to be unlimited (`u64::MAX`) leaves one hundredth to them.
* **A savepoint can be rolled back to once** (C96, `savepoint_used_up`, `equal_savepoint_lost`, transaction_context.rs 122-135, transaction_manager.rs 200-204). `truncate_savepoints` keeps those with a smaller index than the one rolled back to, so the savepoint itself is removed; a second rollback to it is refused with `SavepointNotFound`. An earlier savepoint with no edit between it and this one is removed as well.
* **Setting a savepoint name again has no effect** (C96, `second_name_ignored`, transaction_manager.rs 184-194): the oldest of the name is found, so a rollback to it undoes more than was asked for.
* **A failed rollback cannot be tried again** (C96, `failed_rollback_ends`, transaction_context.rs 90-100, 160-194): the transaction has been taken and the log cut before the first inverse is applied; the graph is left half way.
* **Clearing the log inside a transaction** (C96, `clear_panics`, `clear_forgets`, transaction_context.rs 153-155) makes commit and rollback panic if the log was not empty when the transaction began, and otherwise makes the rollback report success without undoing anything. (Without overflow checks the commit reports `TransactionTooLarge` instead.)
* **A value overwritten in a transaction is not restored** (C96, `editor_reversible_iff`, `overwritten_value_lost`, vertex_editor.rs 441-447, 1491-1493): the graph keeps no values, so the recorded old state of a cell holding a value is empty and the rollback removes the cell's vertex, though it reports success; a test (`transaction_context_is_structure_only`) says the context restores "formulas/vertex mapping" only, but the mapping is lost here too, and the removal marks every dependent as `#REF!` (vertex_editor.rs 725-728).
* **A reference beyond the grid panics** (C97, `beyond_panics`, `offset_cells_partial`, `indirect_range_beyond`). `=OFFSET(A1,1048576,0)` should be `#REF!`: OFFSET does not look at the size of the grid, and reading the cell calls `RelativeCoord::new`, whose assertion fails (eval.rs 23399, coord.rs 252-254). The same happens for `=SUM(A1:A2000000)` and `=SUM(INDIRECT("A1:A2000000"))`: the row bounds of a range are not checked when it is parsed (parser.rs 666-680), and `RangeRef::try_from_shared` asserts (reference.rs 322-323).
* **Indices and offsets are cut to 32 bits** (C97, `index_far_wrong`, `offset_far_wrong`, reference_fns.rs 299, 314, 324, 661-670): `=INDEX(A1:A3,4294967297)` is A1, `=INDEX(A5:A9,4294967296)` is A4, a cell outside the range, and `=OFFSET(A1,4294967296,0)` is A1. An array with the same values gives `#REF!` (`index_array_far_wrong`). With overflow checks `=OFFSET(A1,1E300,0)` panics (`offset_overflow`).
* **INDEX of a whole column stops at the last used row** (C97, `index_column_cut`, reference_fns.rs 112-126): `=INDEX(B:B,100)` is `#REF!` where Excel shows the empty cell B100.
* **Ranges with their corners in another order** (C97, `index_unordered`, `rows_unordered_wrong`): `=INDEX(A5:A2,1)` is `#REF!` and `=ROWS(A5:A2)` is 1 (Excel: A2 and 4).
* **ADDRESS quotes a sheet name only for blanks, `!` and apostrophes** (C97, `indirect_colon_wrong`, address.rs 302).
* **IF hides the error of its condition** (C98, `if_error_lost`, `if_error_refuted`, logical.rs 476-487): with `#N/A` in A1, `=IF(A1,1,2)` is `#VALUE!`, and `=IFNA(IF(A1,1,2),0)` replaces nothing. IFS shows the error itself (`ifs_error`).
* **`&` turns errors into text** (C98, `concat_error_text`, `concat_error_refuted`, interpreter.rs 1244-1250): with `#N/A` in A1, `=A1&"x"` is a text, which ISERROR and IFERROR take for a value. An array under `&` is written in Rust's debug notation (coercion.rs 165).
* **IFERROR leaves an error in a range or array of one cell** (C98, `iferror_refuted`, logical_ext.rs 330-334): `as_scalar` is `None` for a range, but a range of one cell shows as its value (traits.rs 160-163).
* **IFNA leaves a `#N/A` that an argument fails with** (C98, `ifna_refuted`, logical_ext.rs 419): whether a function reports `#N/A` as a value or as `Err` decides.
* **One blank cell makes AND FALSE** (C98, `and_blank_refuted`, logical.rs 222-226), as its documentation says; OR and XOR skip blanks, and Excel does for all three.
* **XOR shows the last error of a range** (C98, `xor_first_refuted`, logical_ext.rs 185-198); AND and OR show the first.
* **Unchanged results are reported as changed** (C99, `unchanged_refuted`, eval.rs 25797-25812 with arrow_store/mod.rs 953-975): the new value is compared as the function gave it with the old one as it is stored. An integer is stored as a float and an error without its message, so that a formula giving an integer or, say, `#SPILL!` with a message is reported on every evaluation. The buffered path compares the stored forms and is exact (`flush_exact`), so that the report depends on the size of the layer.
* **An array that comes out as it was is reported whole** (C99, `array_again`, eval.rs 25698-25718): the earlier spill is cleared first, each cell recorded as changed to empty, then written again.
* **Overlapping regions count repeatedly against the limit of the list** (C99, `limit_refuted`, eval_delta.rs 122-146): only records of equal height or width are merged.
* **Numbers are paired across rows** (C100, `pairs_refuted`, `length_refuted`, stats/mod.rs 2514-2528): CORREL, SLOPE, INTERCEPT, RSQ, the covariances, STEYX, FORECAST, LINEST and TREND collect the numbers of each range by themselves. A text in row 2 of the one and a blank in row 1 of the other leave lists of equal length whose members come from different rows; the result is wrong without notice. A single blank makes it `#N/A`, where the other pairs would do.
* **TREND takes known x that start with a blank cell for an argument left out** (C100, `trend_blank`, `trend_linest_refuted`, stats/mod.rs 6754-6767): it looks at the first cell of the range only and then uses 1, 2, 3, …; LINEST on the same ranges uses their numbers. (GROWTH has the same test.)
* **TREND gives one row for a column of new x** (C100, `trend_row`, stats/mod.rs 6849-6860).
* **R² of LINEST without a constant may be negative** (C100, `linest_r2_refuted`, stats/mod.rs 6278-6296): the total is taken about the mean.
* **LINEST gives one degree of freedom for two points** (C100, `linest_df`, stats/mod.rs 6299-6303), where none is left.
* **FORECAST hides the error of its first argument** as `#VALUE!` (C100, `forecast_error_lost`, stats/mod.rs 6049-6056).
* **SUMX2MY2 and its kin count a non-number as 0** and not its pair as missing (C100, `sumx_refuted`, numeric.rs 3065).
* **A workbook with a fraction of a second cannot be opened again** (C101, `fraction_refuted`, json.rs 592-593, 634-655): times and date-times are written with `to_string`, which adds `.500`, and read with `%H:%M:%S`, which refuses it; reading is strict by default, so reading that sheet fails altogether. Without strictness the value becomes a text.
* **An infinite number makes the file unreadable** (C101, `value_refuted`, json.rs 584): it is written as `null`. Durations lose their fraction of a second and errors their message.
* **With a place listed twice, what is written is never read** (C101, `duplicate_refuted`, `duplicate_write`, json.rs 480-488 and 246-253): a write replaces the first entry, a read takes the last.
* **Renaming a sheet to the name of another drops that one without notice** (C101, `rename_refuted`, json.rs 535-540).
* **Deleted names come back** (C101, `names_refuted`, json.rs 196-229): whenever no name is defined, the names kept with the sheets by older files are taken over again.
* **Cells beyond the declared rectangle are dropped on loading** (C101, `declared_refuted`, json.rs 711-723, 787-803): writes do not extend it. The sparse path loads them.
* **The dense and the sparse path of loading disagree** (C101, `paths_refuted`, json.rs 750-773, 776-806) on values kept with formulas and on cells of row or column 0.
* **A misspelt header of the criteria chooses every record** (C102, `header_refuted`, `header_all`, database.rs 106-126, 138-150, 161-163): the condition is dropped, a row without conditions is left out, and without rows everything matches.
* **A blank row of the criteria is left out** (C102, `blank_refuted`, database.rs 148-150), where it should let every record pass, unless it is the only one.
* **DAVERAGE is not DSUM over DCOUNT** (C102, `average_refuted`, database.rs 269-274): logical values count for all but DCOUNT; a text of digits counts for all (`text_refuted`, 278-284).
* **A field of 1.9 is the first column** (C102, `text_refuted`, database.rs 67).
* **A left shift can lose all bits without an error** (C103, `left_refuted`, `left_lost`, engineering.rs 362-368, 465-471): the test for 2^48 comes after the shift in 64 bits. BITLSHIFT(2^47,17) is 0, BITLSHIFT(2^40,23) is -2^63.
* **A shift of -2^31 or less panics in builds with overflow checks** (C103, `shift_panic`, engineering.rs 370, 459).
* **COMPLEX loses small parts** (C103, `small_refuted`, engineering.rs 2836-2843): COMPLEX(1E-11,1) is "i", and IMPRODUCT of 10^-5 and 10^-6 is "0".
* **IMDIV by a small number is #DIV/0!** (C103, `div_refuted`, engineering.rs 3825): the square of 10^-8 is below 10^-15.
* **The suffix j is lost after a real number, and i and j mix** (C103, `suffix_refuted`, engineering.rs 3428-3439), against the comment of the function.
* **A range like A:3 is not computed after all formulas it reads** (C104, `dep_misses`, used_extent.rs 211-221, virtual_deps.rs 289-320): over A3 and B2 it reads A1:B3, but only formulas in row 3 are waited for, so B2 may be computed later in the same pass.
* **A loaded formula that sums its own column is not circular** (C105, `loaded_self_lost`, `bulk_drops`, ingest_builder.rs 679, delta_edges.rs 867-873): `=SUM(B:B)` in B3 gets an edge to itself when its ranges are registered, but the edges built at the end of the load replace it; entered by an edit it is `#CIRC!`.
* **A loaded formula over several columns may become circular** (C105, `loaded_self_added`, ingest_builder.rs 94-118, 634-652): `=SUM(A:C)` in E1 is registered over the whole sheet, and the edge to itself stays when the load adds edges one by one (more than 800000 vertices, few formulas).
* **INDEX with one number over several columns** (C105, `one_number_differs`, range_deps.rs 443-447): the graph decides with its own used rows whether the range is one row; values that have no vertex are not seen. `=INDEX(B:D, 2)` in C1 is circular although it reads B2.
* **SUMIF with a short target is not recalculated** (C106, `stale`, `fresh_iff`, criteria_aggregates.rs 126-132): the target grows to the size of the criteria range when the formula is evaluated, but its dependencies are the written cells. `=SUMIF(A1:A3,">0",B1)` adds B1:B3; an edit of B2 or B3 leaves the old value, and a formula in B2 is not waited for.
* **SUMIFS with a narrower criteria range** (C106, `sumIfs_narrow_wrong`, criteria_aggregates.rs 191-203, 314-577): `=SUMIFS(B1:C3,A1:A3,"<5")` is no `#VALUE!`; column C is added in full, because the missing criteria column counts as empty.
* **SUMPRODUCT of whole columns** (C107, `columns_unfit`, `column_of_one`, aggregate.rs 505-520, used_extent.rs 84-252): a whole column is read to its own last used row. `=SUMPRODUCT(A:A,B:B)` is `#VALUE!` if the columns end in different rows; if B is used in B1 only, B1 multiplies every row of A (60 instead of 10 for 1, 2, 3 in A1:A3 and 10 in B1).
* **Logical values and texts in SUMPRODUCT** (C107, `logical_counts`, aggregate.rs 537): TRUE counts as 1 and `"3"` as 3, although the documentation says that values that are not numbers are treated as 0.
* **The fallback for a refused family cannot succeed** (C108, `register_refused`, eval.rs 7148-7165): if `register_partition(source, true)` is refused because another family claims one of its ordinary formulas, the caller tries `register_partition(source, false)`; the same check refuses that as well, and the error ends the preparation of the sheet instead of leaving the family to the graph. The loader does not produce such families, since overlapping ranges are given up before (C91, `conflict_marked`).
* **Two different US 30/360 counts** (C109, `us_agree_iff`, `us_agree_fails`): from 2024-01-01 to 2024-04-30 `YEARFRAC(…, 0)` takes 120/360, the functions for bonds 119/360. `DAYS360` treats every last day of a month as a 31st, bonds.rs only a 31st itself and the last of February.
* **YEARFRAC by basis 1 of a whole year need not be 1** (C109, `yearfrac_year_fails`): from 2023-07-01 to 2024-07-01 it is 184/365 + 182/366.
* **WEEKNUM(…, 21) is not ISOWEEKNUM for the first serials of the 1900 system** (C109, `weeknum_iso_fails`), where the serials are off by one from the calendar.
* **WEEKNUM with type 21 accepts two serials after the last date** (C109, `iso_week_end_fails`, weekday_workday.rs 261-291): only the Thursday of the week is checked, so that the Saturday and Sunday after 9999-12-31 have week 52, while ISOWEEKNUM and the other types of WEEKNUM refuse them.
* **Coupon dates drift for bonds that mature after the 28th** (C110, `coupons_fail`, bonds.rs 178-228): each step goes from the date before, already shortened to the length of its month (Aug 31, Feb 28, Aug 28). For a maturity of 2025-08-31 and a settlement on 2024-08-30 the coupon of the next day is not counted, and for a settlement on 2025-08-29 the "next coupon" lies on 2025-08-28, before it.
* **ACCRINT with calc_method FALSE counts from the first interest date for ever** (C110, `accrual_fails`, bonds.rs 350-364): interest first paid 2024-07-01, half-yearly, settlement 2026-10-01 gives 2.25 years of interest rather than 0.25.
* **Treasury bills of one year over a February 29th are refused** (C110, `bill_leap_refused`): 366 days are more than 365.
* **Writing a table that ends at a marker erases the marker** (C111, `marker_fails`, runtime.rs 1286-1298): the row after the data is cleared, and that is the marker's row when as many rows are written as there were; with more rows the marker is overwritten. `batch(..).run([])` does so by writing back what it read.
* **Writing a longer table erases what lies below it** (C111, `below_fails`): with one row more, the row after the former blank row is cleared; a batch does not restore it.
* **Blank rows within a table** (C111, `gap_fails`): they pass the validation if the column is nullable, or as texts of spaces in any case, but end the table when it is read; the rows after them stay in the workbook after a batch.
* **A blank header narrows a range** (C111, `header_gap_fails`, layout.rs 60-83): a range written with an empty header in the middle is read back without the columns from there on; the values written in them stay, and writing the former range again is refused for its width.
* **Markers with spaces around them are never met** (C111, `marker_spaces_fails`): the cell is trimmed, the marker is not.
* Noted while reading, not modelled: a batch reads the values of its input cells and writes them back with `set_value`, so that a formula in an input cell is replaced by its value.
* **Enumerations of whole numbers lock a port** (C112, `whole_enum_fails`, `default_enum_fails`; validation.rs 351-362, runtime.rs 1324-1330): reading turns whole numbers into floating point numbers, and these are never equal to a `5` of the manifest. With `enum: [5]` writing 5 is accepted, after which reading fails; a default of 5 fails as well. That 5 and 5.0 differ is documented (manifest.rs 680); that no number at all can be read is not.
* **Numbers next to zero are integers** (C112, `tiny_fails`, validation.rs 295): the distance to the next whole number is compared with `f64::EPSILON`.
* **A required table may have no rows** (C112, `required_table_fails`): each row is validated, and there is none.
* **REPT can panic** (C113, `rept_panics`, `rept_panic_fails`, char_code_rept.rs 432): the length of the result is computed without a check for overflow. `=REPT("abcd",2^62)` has a length of `2^64`, which becomes 0, passes the limit, and `str::repeat` panics; with overflow checks the multiplication does.
* **REPT counts bytes** (C113, `rept_bytes_fails`): `=REPT("é",20000)` is refused as longer than 32767 characters.
* **Codes without a character** (C113, `code_char_fails`): `CHAR` of 129, 141, 143, 144 and 157 is U+FFFD, whose code is 65533.
* **Every RAND of a formula is the same number** (C114, `rand_twice_fails`, `dice_fails`, traits.rs 1776-1789): a call builds its generator anew from the cell, the function and the recalculation. `=RAND()-RAND()` is always 0, `=RANDBETWEEN(1,6)+RANDBETWEEN(1,6)` is always even.
* **RAND does not change by default** (C114, `recalc_fails`, engine/mod.rs 884): the level of an engine nobody has configured is `Always`, whose seed leaves out the recalculation. RAND then draws the same number at every recalculation; only `OnRecalc` changes it.
* **Seeds coincide** (C114, `seed_collides`, rng.rs 46-50): the two lanes never coincide (`lanes_injective`), but they are mixed into one word of 64 bits before the generator starts.
* **RANDBETWEEN cuts its bounds** (C114, `between_fraction_fails`, random.rs 226-235): `=RANDBETWEEN(1.5,1.9)` gives 1, which is not between them; a bound that is not a number counts as 0. Between the least and the greatest 64-bit number it always gives the least (`between_full_fails`).
* **RANDARRAY with bounds the wrong way round** (C114, `array_swapped_fails`) is refused for whole numbers only.
* **A semicolon in quotes ends a section** (C115, `quoted_semicolon_fails`, numfmt.rs 120): `"a;b"0.00` is of no class, `"a,b"0.00` is a number.
* **Months, long elapsed hours, currencies in brackets** (C115, `month_fails`, `elapsed_fails`, `currency_fails`, `general_fails`): `mmmm` is of no class, `[hh]:mm:ss` is a time of the day, `[$€-407] #,##0.00` is a plain number, `General;-General` is of no class.
* **A clock set by hand is lost** (C116, `clock_fails`, runtime.rs 1489-1512, engine/eval.rs 3889-3908): `set_clock` leaves the deterministic mode alone, and restoring the mode after an evaluation builds the clock of that mode. After `evaluate_once` with another mode, NOW and TODAY read the system's clock instead of the injected one.
* **LOOKUP does not pass over errors** (C117, `lookup_errors_fail`, legacy.rs 38-45): an entry that does not compare sends the halving to the left, so `LOOKUP(2, 1/(...))` over error, error, 1 is #N/A, while MATCH finds place 3.
* **LOOKUP takes blanks for 0** (C117, `lookup_blanks_fail`): in 1, 2, blank the number 5 is found at the blank, and the answer is 0.
* **A result vector that is too short gives 0** (C117, `lookup_short_fails`, legacy.rs 230-236) and not an error.
* **TEXT drops the decimals of percentages** (C118, `percent_fails`, value_text.rs 374-376): `TEXT(0.1234, "0.00%")` is `12%`.
* **TEXT knows two decimals or all** (C118, `places_fail`, value_text.rs 341-355): `0.000` and `#,##0.000` write two decimals, `0.0` and `0` write as many as the number has, `0,000` writes no separators and `00000` no leading zeros.
* **TEXT writes -0** (C118, `negative_zero_fails`, value_text.rs 432-436): `TEXT(-0.2, "#,##0")` is `-0`.
* **TEXT leaves seconds and names of months alone** (C118, `date_letters_fail`, value_text.rs 463-470): `hh:mm:ss` ends in `:ss`, and `mmm` is the number of the month and an m.
* **TEXT ignores single and capital letters of dates** (C118, `letters_fail`): `d/m/yy` and `YYYY-MM-DD` write the serial number.
* **NUMBERVALUE leaves group separators out anywhere** (C119, `group_after_fails`, value_text.rs 206): `1.2,3` reads as 1.23 and `,1,,2.3` as 12.3.
* **NUMBERVALUE always takes a point for the decimal separator** (C119, `point_fails`): with a comma and a space as separators `1.5` reads like `1,5`.
* **DATEVALUE changes the order of day and month from one day to the next** (C120, `order_fails`, date_value.rs 20-25): `12/02/2024` is the second of December and `13/02/2024` the thirteenth of February, although date_serial.rs 65 says numeric slash dates are month, day and year.
* Smaller, noted while reading the tokenizer and parser: `inf` and `nan` are numbers to the operand test; `.5E+3` is not recognised as
  scientific notation; a function's closing token where an expression is expected is read as a call of the function with empty name;
  an array whose tokens end early loses its unfinished row (both unreachable after a successful strict tokenization).

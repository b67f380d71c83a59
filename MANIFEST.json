{"claims": [
{"property": "C01", "status": "proved", "theorems": ["Verif.Coord.coord_tryNew_roundtrip", "Verif.Coord.coord_new_panics_iff", "Verif.Coord.coord_fromRaw_iff", "Verif.Coord.coord_no_alias", "Verif.Coord.coord_constructed_valid", "Verif.Coord.coord_fromExcel", "Verif.Coord.rel_roundtrip", "Verif.Coord.rel_fromRaw_iff", "Verif.Coord.rel_withAbs", "Verif.Coord.coord_relative_absolute", "Verif.Coord.rel_pos_bounded", "Verif.Coord.rel_offset", "Verif.Coord.rel_rebase"], "note": ""},
{"property": "C02", "status": "proved", "theorems": ["Verif.A1.letters_parse_iff", "Verif.A1.letters_print_iff", "Verif.A1.letters_roundtrip", "Verif.A1.letters_roundtrip'", "Verif.A1.letters_injective", "Verif.A1.letters_1based_print", "Verif.A1.letters_1based_parse", "Verif.A1.letters_renderers_agree", "Verif.A1.letters_port_agrees"], "note": ""},
{"property": "C03", "status": "proved", "theorems": ["Verif.A1.parse_a1_iff", "Verif.A1.a1_roundtrip", "Verif.A1.a1_in_grid"], "note": ""},
{"property": "C04", "status": "proved", "theorems": ["Verif.PackedCell.packed_new", "Verif.PackedCell.packed_injective", "Verif.PackedCell.packed_decode", "Verif.PackedCell.packed_excel"], "note": ""},
{"property": "C05", "status": "partial", "theorems": ["Verif.Coord.tryFromI64_partial", "Verif.Coord.tryFromI64_aliases"], "note": "The code truncates with `as u32` before the range check; tryFromI64_aliases proves the property fails for values >= 2^32, tryFromI64_partial proves it below 2^32."},
{"property": "C06", "status": "partial", "theorems": ["Verif.SheetRef.sheet_prefix_roundtrip", "Verif.SheetRef.sheet_prefix_empty", "Verif.SheetRef.sheet_format_injective", "Verif.SheetRef.sheet_bare_iff", "Verif.SheetRef.sheet_prefix3d_roundtrip_partial", "Verif.SheetRef.sheet_prefix3d_control_fails"], "note": "Single-sheet prefixes round-trip for every name. For two-sheet (3D) prefixes the property is false when a name contains tab, LF or CR and nothing else that forces quotes (sheet_prefix3d_control_fails); the _partial theorem covers all other names."},
{"property": "C07", "status": "proved", "theorems": ["Verif.Dates.dateToSerial_next", "Verif.Dates.dateToSerial_epoch", "Verif.Dates.date_roundtrip", "Verif.Dates.dateToSerial_strictMono", "Verif.Dates.tryDate_isSome_iff", "Verif.Dates.serial_roundtrip", "Verif.Dates.displayParts_spec"], "note": ""},
{"property": "C08", "status": "proved", "theorems": ["Verif.Dates.normalizedParts_carry", "Verif.Dates.normalized_spec", "Verif.Dates.nearestSecond_near", "Verif.Dates.tryDatetime_valid", "Verif.Dates.datetime_roundtrip", "Verif.Dates.datetime_roundtrip_exact"], "note": "The product fract*86400 is exact in the model; normalizedParts_carry holds for whatever value (0..86400) the rounded product has, and datetime_roundtrip tolerates any error below half a second in the stored serial."},
{"property": "C09", "status": "proved", "theorems": ["Verif.Sched.buildLayers_spec", "Verif.Sched.buildLayers_circ_iff", "Verif.Sched.buildLayers_deterministic", "Verif.Sched.buildLayersVirtual_spec", "Verif.Sched.buildLayersVirtual_circ_iff", "Verif.Sched.buildLayersVirtual_deterministic", "Verif.Sched.createSchedule_valid", "Verif.Sched.createScheduleVirtual_valid", "Verif.Sched.createSchedule_deterministic", "Verif.Sched.createScheduleVirtual_deterministic"], "note": "Hypothesis g.WF (the two edge views are inverse and duplicate-free) is C12. The optional dynamic-topology branch is C11."},
{"property": "C10", "status": "proved", "theorems": ["Verif.Sched.components_partition", "Verif.Sched.same_component_iff", "Verif.Sched.components_ordered", "Verif.Sched.cyclic_iff", "Verif.Sched.cyclic_iff_base", "Verif.Sched.virtual_self_dependency_missed"], "note": "With virtual dependencies the hypothesis is that no vertex is its own virtual dependency unless it is also its own stored dependency; virtual_self_dependency_missed shows it is needed."},
{"property": "C100", "status": "partial", "theorems": ["Verif.Pairs.least_squares", "Verif.Pairs.slope_fails", "Verif.Pairs.exact_line", "Verif.Pairs.correl_bounds", "Verif.Pairs.rsq_square", "Verif.Pairs.symmetric", "Verif.Pairs.rsq_one", "Verif.Pairs.correl_affine", "Verif.Pairs.covariance", "Verif.Pairs.steyx_spec", "Verif.Pairs.forecast_spec", "Verif.Pairs.line_spec", "Verif.Pairs.linest_r2", "Verif.Pairs.trend_spec", "Verif.Pairs.pair_errors", "Verif.Pairs.aligned", "Verif.Pairs.linest_se", "Verif.Pairs.linest_df", "Verif.Pairs.trend_row", "Verif.Pairs.defaultX_spec", "Verif.Pairs.sumx_spec", "Verif.Pairs.sumxmy2_zero", "Verif.Pairs.sumx_cells", "Verif.Pairs.pairs_refuted", "Verif.Pairs.length_refuted", "Verif.Pairs.forecast_error_lost", "Verif.Pairs.linest_r2_refuted", "Verif.Pairs.trend_blank", "Verif.Pairs.trend_linest_refuted", "Verif.Pairs.sumx_refuted"], "note": "Proved with exact arithmetic: least squares and uniqueness, bounds and invariance of correlation, identities of the covariances, STEYX, LINEST, TREND and the SUMX functions. Refuted: numbers are paired across rows if non-numbers stand in different rows; one blank gives #N/A; R2 of LINEST without constant may be negative, its degrees of freedom never are below 1; TREND takes a range that starts with a blank for an omitted argument; FORECAST hides errors; the SUMX functions count non-numbers as 0."},
{"property": "C101", "status": "partial", "theorems": ["Verif.Json.date_kept", "Verif.Json.time_kept", "Verif.Json.dateTime_kept", "Verif.Json.error_kept", "Verif.Json.saved_spec", "Verif.Json.round_trip", "Verif.Json.ops_spec", "Verif.Json.write_range", "Verif.Json.range_read", "Verif.Json.duplicate_write", "Verif.Json.rename_spec", "Verif.Json.rename_same", "Verif.Json.create_delete", "Verif.Json.names_kept", "Verif.Json.names_migrated", "Verif.Json.dense_spec", "Verif.Json.sparse_spec", "Verif.Json.dims_hold", "Verif.Json.load_complete", "Verif.Json.load_sound", "Verif.Json.load_budget", "Verif.Json.load_accepted", "Verif.Json.fraction_refuted", "Verif.Json.value_refuted", "Verif.Json.duplicate_refuted", "Verif.Json.rename_refuted", "Verif.Json.names_refuted", "Verif.Json.declared_refuted", "Verif.Json.paths_refuted"], "note": "Proved: which values survive a save, exactly, and what becomes of the others; writes and clears refine a partial function if no place is listed twice; loading is complete without a declared rectangle and keeps its limits. Refuted: a time with a fraction of a second, or an infinite number, makes the saved workbook unreadable; durations lose fractions, errors their messages; with a place listed twice a write is never read; renaming onto a sheet drops it; deleted names come back; cells beyond the declared rectangle are dropped; the two paths of loading disagree."},
{"property": "C102", "status": "partial", "theorems": ["Verif.Dbase.names_iff", "Verif.Dbase.field_spec", "Verif.Dbase.chosen_iff", "Verif.Dbase.pick_spec", "Verif.Dbase.result_spec", "Verif.Dbase.error_spec", "Verif.Dbase.argument_error", "Verif.Dbase.variance_spec", "Verif.Dbase.deviation_spec", "Verif.Dbase.get_spec", "Verif.Dbase.counta_spec", "Verif.Dbase.rows_order", "Verif.Dbase.result_order", "Verif.Dbase.columns_order", "Verif.Dbase.inclusion_exclusion", "Verif.Dbase.header_all", "Verif.Dbase.average_count", "Verif.Dbase.blank_refuted", "Verif.Dbase.header_refuted", "Verif.Dbase.average_refuted", "Verif.Dbase.text_refuted"], "note": "Proved with exact arithmetic: the records chosen, the results, errors, order of rows and columns, inclusion and exclusion of alternatives. Refuted: a blank row of the criteria is left out and does not let all records pass; a header that names no column drops its condition, so that all records are taken; DSUM counts logical values and DCOUNT does not, so DAVERAGE is not DSUM over DCOUNT; DCOUNT counts texts of digits."},
{"property": "C103", "status": "partial", "theorems": ["Verif.Engin.toBits_iff", "Verif.Engin.refused", "Verif.Engin.refused_second", "Verif.Engin.bit_spec", "Verif.Engin.left_spec", "Verif.Engin.left_exact", "Verif.Engin.right_spec", "Verif.Engin.shift_negative", "Verif.Engin.shift_back", "Verif.Engin.left_refuted", "Verif.Engin.left_lost", "Verif.Engin.shift_panic", "Verif.Engin.shift_fraction", "Verif.Engin.unknown_unit", "Verif.Engin.convert_spec", "Verif.Engin.convert_na", "Verif.Engin.convert_errors", "Verif.Engin.convert_ok", "Verif.Engin.convert_compose", "Verif.Engin.convert_mono", "Verif.Engin.clean_spec", "Verif.Engin.parse_formatClean", "Verif.Engin.shows_format", "Verif.Engin.complex_spec", "Verif.Engin.rounded_exact", "Verif.Engin.complex_errors", "Verif.Engin.argument_spec", "Verif.Engin.sum_product_spec", "Verif.Engin.sum_product_error", "Verif.Engin.two_errors", "Verif.Engin.other_spec", "Verif.Engin.shows_unique", "Verif.Engin.order", "Verif.Engin.small_refuted", "Verif.Engin.div_refuted", "Verif.Engin.suffix_refuted", "Verif.Engin.unary_lawful"], "note": "Proved with exact numbers: every bit of the results, shifts that fit, right shifts of any length, units against the definitions of yard and pound, reading of what is printed, complex arithmetic against Mathlib's complex numbers, order of arguments. Refuted: a left shift past 2^63 gives 0 or a negative number; a shift of -2^31 panics in checked builds; parts within 10^-10 of an integer are lost; IMDIV by 10^-8 is #DIV/0!; the suffix j is lost after a real number and mixed suffixes are added. Not modelled: rounding of floats, infinite numbers read from text, the transcendental functions."},
{"property": "C104", "status": "partial", "theorems": ["Verif.Ops.Ranges.dep_covers_partial", "Verif.Ops.Ranges.dep_covers_written", "Verif.Ops.Ranges.exact_of", "Verif.Ops.Ranges.dep_misses", "Verif.Ops.Ranges.virtual_iff", "Verif.Ops.Ranges.ordered_after_partial", "Verif.Ops.Ranges.dep_within", "Verif.Ops.Ranges.graph_covers"], "note": "Proved: coverage for all ranges that can be written except column before row, exactness of the formulas waited for, and coverage by the resolution of the graph. Refuted for A:3 and for ranges open on all sides. That hints are right about used cells is a hypothesis, met by the hints of any list of cells."},
{"property": "C105", "status": "partial", "theorems": ["Verif.SelfRef.excluded_iff", "Verif.SelfRef.records_iff", "Verif.SelfRef.selected_two", "Verif.SelfRef.index_passed_over", "Verif.SelfRef.own_in_bounds", "Verif.SelfRef.excluded_not_read_partial", "Verif.SelfRef.static_is_value", "Verif.SelfRef.one_number_differs", "Verif.SelfRef.bulk_records_partial", "Verif.SelfRef.bulk_drops", "Verif.SelfRef.loaded_self_lost", "Verif.SelfRef.loaded_self_added"], "note": "Proved for formulas entered by an edit: exactly which ranges are passed over, and that INDEX does not read the own cell then (with one number only if the range is of one row at both times or at none; refuted otherwise). Refuted for loaded formulas."},
{"property": "C106", "status": "partial", "theorems": ["Verif.SumIf.chunks_sum", "Verif.SumIf.sumIf_spec", "Verif.SumIf.averageIf_spec", "Verif.SumIf.countIf_spec", "Verif.SumIf.size_ignored", "Verif.SumIf.sumIf_not", "Verif.SumIf.sumIf_split", "Verif.SumIf.sumIf_reads", "Verif.SumIf.fresh_iff", "Verif.SumIf.fresh_partial", "Verif.SumIf.stale", "Verif.SumIf.sumIfs_spec_partial", "Verif.SumIf.sumIfs_order", "Verif.SumIf.sumIfs_one", "Verif.SumIf.sumIfs_single", "Verif.SumIf.sumIfs_narrow_wrong"], "note": "Proved: the values over rectangles and chunks, and exactly when no edit is missed. Refuted: =SUMIF(A1:A3,\">0\",B1) reads B2 and is not recalculated when B2 is edited; SUMIFS with a narrower criteria range is no error. SUMIFS is proved for ranges of one size on one sheet."},
{"property": "C107", "status": "partial", "theorems": ["Verif.SumProd.dims_iff", "Verif.SumProd.unfit_iff", "Verif.SumProd.pick_at", "Verif.SumProd.sumProduct_spec", "Verif.SumProd.error_shows", "Verif.SumProd.order_free_partial", "Verif.SumProd.error_order", "Verif.SumProd.scale", "Verif.SumProd.logical_counts", "Verif.SumProd.blank_zero", "Verif.SumProd.columns_partial", "Verif.SumProd.columns_unfit", "Verif.SumProd.column_of_one"], "note": "Proved for arrays of at least one row and column. Which of several errors shows depends on the order (error_order). Refuted for whole columns: #VALUE! if their last used rows differ, and a column used in its first row only multiplies every row."},
{"property": "C108", "status": "proved", "theorems": ["Verif.Route.disjointOk_iff", "Verif.Route.build_has", "Verif.Route.route_spec", "Verif.Route.compact_iff", "Verif.Route.validate_iff", "Verif.Route.validate_compact", "Verif.Route.router_accepts", "Verif.Route.register_owns", "Verif.Route.register_keeps", "Verif.Route.register_refused", "Verif.Route.owned_cells", "Verif.Route.edited_cells", "Verif.Route.touches_iff", "Verif.Route.tryNew_spec", "Verif.Route.handOver_exact", "Verif.Route.handOver_valid", "Verif.Route.records_routed"], "note": "A record at a cell that does not belong to the family is handed on though the cell was edited (edited_cells); the loader takes no such family. A family refused as handled directly is refused as not handled directly too (register_refused), so the fallback of the caller ends the whole load."},
{"property": "C109", "status": "partial", "theorems": ["Verif.Days.european_count", "Verif.Days.european_value", "Verif.Days.days360_months", "Verif.Days.days360_mono", "Verif.Days.us_count_fails", "Verif.Days.us_agree_iff", "Verif.Days.us_agree_fails", "Verif.Days.yearfrac_days", "Verif.Days.yearfrac_split", "Verif.Days.yearfrac_split_fails", "Verif.Days.yearfrac_swap", "Verif.Days.yearfrac_mono", "Verif.Days.yearfrac_years", "Verif.Days.yearfrac_year_fails", "Verif.Days.yearfrac_bond", "Verif.Days.iso_weeks", "Verif.Days.weeknum_counts", "Verif.Days.weeknum_iso_partial", "Verif.Days.weeknum_iso_fails", "Verif.Days.accrual_issue", "Verif.Days.price_refuses", "Verif.Days.week_start_spec", "Verif.Days.iso_week_end", "Verif.Days.iso_week_end_fails", "Verif.Days.weeknum_edges"], "note": "Fails by basis 0: DAYS360 and YEARFRAC count otherwise than the functions for bonds (us_agree_iff says exactly when they agree), and neither adds up. WEEKNUM with type 21 differs from ISOWEEKNUM for the first serials of the 1900 system. Missing: rounding of floats, arguments given as texts."},
{"property": "C11", "status": "partial", "theorems": ["Verif.Topo.ensure_mem", "Verif.Topo.ensure_before", "Verif.Topo.compact_id", "Verif.Topo.removeEdge_order", "Verif.Topo.rebuild_spec", "Verif.Topo.rebuild_topological", "Verif.Topo.refused_sound", "Verif.Topo.refused_iff_cycle_partial", "Verif.Topo.accepted_forward", "Verif.Topo.splice_eq", "Verif.Topo.splice_old_edges", "Verif.Topo.accepted_topological_partial", "Verif.Topo.layersFor_valid", "Verif.Topo.splice_breaks_order", "Verif.Topo.cycle_accepted", "Verif.Topo.budget_diverges", "Verif.Topo.chain_cycle", "Verif.Topo.layers_cap_zero_diverges"], "note": "Refusals are always backed by a real path, accepted edges point forward, rebuilds are topological. Full preservation is false of the code: splice_breaks_order and cycle_accepted give a three-edge history whose last edge closes a cycle and is accepted; budget_diverges shows unbounded recursion once the visit budget is exceeded."},
{"property": "C110", "status": "partial", "theorems": ["Verif.Days.addMonths_spec", "Verif.Days.before_ends", "Verif.Days.coupons_partial", "Verif.Days.coupons_fail", "Verif.Days.accrual_partial", "Verif.Days.accrual_fails", "Verif.Days.share_range", "Verif.Days.price_partial", "Verif.Days.price_par", "Verif.Days.price_anti", "Verif.Days.yield_price", "Verif.Days.bill_yield", "Verif.Days.bill_long", "Verif.Days.bill_leap_refused"], "note": "Coupon dates proved for maturities up to the 28th of the month; after that they drift (coupons_fail). ACCRINT with calc_method 0 is wrong after the first interest (accrual_fails). Bills of one year that contain February 29th are refused. Missing: floats (the model computes with real numbers), convergence of the search for the yield."},
{"property": "C111", "status": "partial", "theorems": ["Verif.Port.end_row_spec", "Verif.Port.write_table_cells", "Verif.Port.write_read_partial", "Verif.Port.batch_partial", "Verif.Port.base_restores", "Verif.Port.marker_fails", "Verif.Port.below_fails", "Verif.Port.gap_fails", "Verif.Port.marker_spaces_fails", "Verif.Port.header_cols_spec", "Verif.Port.range_cols_run", "Verif.Port.write_read_range_partial", "Verif.Port.header_gap_fails", "Verif.Port.sheet_end_spec", "Verif.Port.marker_missing", "Verif.Port.table_cols_spec", "Verif.Port.fit_row_spec", "Verif.Port.range_cols_spec", "Verif.Port.range_width"], "note": "Proved for tables without blank rows, with nothing below them, that end at a blank row. Fails otherwise: markers and rows below are erased, rows after a blank one remain. Ranges are proved to be read back, but not yet within batches. Missing: records, named ranges, several sheets, formulas in input cells."},
{"property": "C112", "status": "partial", "theorems": ["Verif.Contract.check_lit_spec", "Verif.Contract.validate_spec", "Verif.Contract.read_holds", "Verif.Contract.read_accepted", "Verif.Contract.record_default", "Verif.Contract.default_whole", "Verif.Contract.present_again", "Verif.Contract.read_again", "Verif.Contract.number_port", "Verif.Contract.whole_spec", "Verif.Contract.tiny_fails", "Verif.Contract.whole_enum_fails", "Verif.Contract.default_enum_fails", "Verif.Contract.required_table_fails", "Verif.Contract.type_spec", "Verif.Contract.bounds_need_numbers", "Verif.Contract.empty_spec", "Verif.Contract.partial_spec", "Verif.Contract.read_serials", "Verif.Contract.read_dates"], "note": "Proved: what is read meets the manifest, may be written and is read again; defaults fill only what is empty. Fails: numbers of an enumeration written without a point are accepted but never read, not even as defaults; numbers next to zero are integers. That the store keeps what is written is not part of this model."},
{"property": "C113", "status": "partial", "theorems": ["Verif.Chars.code_char", "Verif.Chars.char_code", "Verif.Chars.code_shared", "Verif.Chars.code_char_fails", "Verif.Chars.unichar_spec", "Verif.Chars.unicode_unichar", "Verif.Chars.unichar_unicode", "Verif.Chars.asc_spec", "Verif.Chars.asc_changes", "Verif.Chars.clean_spec", "Verif.Chars.rept_spec_partial", "Verif.Chars.rept_text", "Verif.Chars.rept_panics", "Verif.Chars.rept_panic_fails", "Verif.Chars.rept_bytes_fails"], "note": "Fails: five codes without a character come back as 65533; REPT counts bytes for its limit, and panics when the length overflows to a small number (rept_panics says exactly when). Missing: coercion of arguments."},
{"property": "C114", "status": "partial", "theorems": ["Verif.Rng.mix_left", "Verif.Rng.mix_right", "Verif.Rng.position_injective", "Verif.Rng.lanes_injective", "Verif.Rng.seed_injective", "Verif.Rng.seed_collides", "Verif.Rng.fnv_one_byte", "Verif.Rng.salts_differ", "Verif.Rng.site_seeds", "Verif.Rng.rand_range", "Verif.Rng.rand_twice_fails", "Verif.Rng.recalc_fails", "Verif.Rng.recalc_lanes", "Verif.Rng.between_cut", "Verif.Rng.between_spec", "Verif.Rng.dice_fails", "Verif.Rng.between_fraction_fails", "Verif.Rng.cut_spec", "Verif.Rng.between_full_fails", "Verif.Rng.array_spec", "Verif.Rng.array_some", "Verif.Rng.array_refused", "Verif.Rng.array_empty", "Verif.Rng.array_swapped_fails", "Verif.Rng.array_shape", "Verif.Rng.functions_differ", "Verif.Rng.between_other"], "note": "Fails: all calls of one function in a cell draw the same number, an engine nobody has configured draws the same numbers at every recalculation, the two lanes of a seed are mixed into one word so that seeds of different cells or recalculations coincide, RANDBETWEEN cuts its bounds towards zero. Missing: the generator of the crate rand is a parameter; floating point."},
{"property": "C115", "status": "partial", "theorems": ["Verif.NumFmt.class_parts_partial", "Verif.NumFmt.quote_says_nothing", "Verif.NumFmt.quoted_semicolon_fails", "Verif.NumFmt.class_case", "Verif.NumFmt.parse_spaces", "Verif.NumFmt.numeric_spec", "Verif.NumFmt.parse_again", "Verif.NumFmt.decimals_spec", "Verif.NumFmt.temporal_spec", "Verif.NumFmt.builtin_temporal", "Verif.NumFmt.month_fails", "Verif.NumFmt.elapsed_fails", "Verif.NumFmt.currency_fails", "Verif.NumFmt.general_fails"], "note": "Fails: a semicolon in quotes ends the first section (so class_parts_partial needs parts without semicolons), a month alone is no date, [hh] is no duration, a currency in brackets is lost, General with a second section is not general. Missing: white space (the Unicode property) is a parameter."},
{"property": "C116", "status": "partial", "theorems": ["Verif.Options.once_restores_partial", "Verif.Options.once_runs", "Verif.Options.apply_sees", "Verif.Options.apply_refuses", "Verif.Options.clock_fails", "Verif.Options.frozen_rand"], "note": "once_restores_partial needs the engine's clock to be that of its mode; clock_fails shows that a clock set by hand is lost. Missing: what the evaluation itself does to the engine is a parameter that cannot touch these fields."},
{"property": "C117", "status": "partial", "theorems": ["Verif.Lookup.lookup_edge", "Verif.Lookup.lookup_numbers", "Verif.Lookup.lookup_texts", "Verif.Lookup.lookup_vector", "Verif.Lookup.lookup_array", "Verif.Lookup.lookup_errors_fail", "Verif.Lookup.lookup_blanks_fail", "Verif.Lookup.lookup_short_fails"], "note": "Proved for vectors of numbers and of texts in order, for both forms and every shape; lookup_edge says what is found in any vector. Refuted: blanks and errors are not passed over, and a short result vector gives 0."},
{"property": "C118", "status": "partial", "theorems": ["Verif.TextFn.group_few", "Verif.TextFn.group_more", "Verif.TextFn.group_digits", "Verif.TextFn.thousands_spec", "Verif.TextFn.plain_spec", "Verif.TextFn.percent_fails", "Verif.TextFn.places_fail", "Verif.TextFn.negative_zero_fails", "Verif.TextFn.letters_fail", "Verif.TextFn.clock_near", "Verif.TextFn.pad_value", "Verif.TextFn.date_spec", "Verif.TextFn.text_date", "Verif.TextFn.date_letters_fail"], "note": "The separators are proved for digits of any count and the codes with # and a comma for every number. Refuted: decimals of percentages, three decimals or one, rounding to none, commas and zeros without #, the sign of 0, single or capital letters of dates. date_spec covers every code made of yyyy, mm, dd, hh:mm and other characters. Missing: how floats are rounded is a parameter, as are the parts of a serial number."},
{"property": "C119", "status": "partial", "theorems": ["Verif.TextFn.number_value_spec", "Verif.TextFn.number_value_spaces", "Verif.TextFn.number_value_refuses", "Verif.TextFn.group_after_fails", "Verif.TextFn.point_fails"], "note": "number_value_spec says for separators of one character what is read from every text. Refuted: group separators behind the decimal separator and points beside another separator are not refused. Missing: separators of several characters, blanks between percent signs; reading a float is a parameter."},
{"property": "C12", "status": "partial", "theorems": ["Verif.Edges.out_edges_exact", "Verif.Edges.in_edges_exact", "Verif.Edges.refs_exact", "Verif.Edges.rebuild_transparent", "Verif.Edges.edges_nodup", "Verif.Edges.visit_exact", "Verif.Edges.num_edges_exact", "Verif.Edges.unregistered_source_lost", "Verif.Edges.bulk_load_forgets_vertices"], "note": "Exact for every history in which the source of an added edge is registered and a bulk load re-registers all vertices. The bulk loader does not do the latter: bulk_load_forgets_vertices proves that edges of previously registered vertices are then lost at the next rebuild."},
{"property": "C120", "status": "partial", "theorems": ["Verif.TextFn.date_value_slashes", "Verif.TextFn.date_value_spaces", "Verif.TextFn.slash_iff", "Verif.TextFn.year_window", "Verif.TextFn.year_digits", "Verif.TextFn.text_back", "Verif.TextFn.day_first_spec", "Verif.TextFn.order_fails"], "note": "date_value_slashes says what every three numbers with slashes read as, text_back that mm/dd/yyyy is read back for every day. Refuted: a text that is no date as month, day and year is read as day, month and year instead of refused. Missing: ISO dates, names of months and first numbers of four digits; which days there are is a parameter."},
{"property": "C13", "status": "proved", "theorems": ["Verif.Interval.query_sound", "Verif.Interval.query_complete", "Verif.Interval.query_nodup", "Verif.Interval.len_exact", "Verif.Interval.point_exact", "Verif.Interval.visits_exact", "Verif.Interval.remove_reports", "Verif.Interval.pointCount_eq"], "note": "Bulk items must carry non-empty sets (all callers do); hash iteration order is not modelled."},
{"property": "C14", "status": "partial", "theorems": ["Verif.Stripes.collect_exact_partial", "Verif.Stripes.removed_not_reported", "Verif.Stripes.no_stale_stripes", "Verif.Stripes.visit_exact_partial", "Verif.Stripes.bulk_multi_column_missed", "Verif.Stripes.bulk_multi_column_spurious", "Verif.Stripes.mixed_open_missed"], "note": "False for formulas loaded in bulk whose range is open in one direction and spans several columns or rows (A:C), and for the mixed half-open shapes A:3 and 1:C. Proved for all other shapes."},
{"property": "C15", "status": "proved", "theorems": ["Verif.Dirty.mark_terminates", "Verif.Dirty.mark_exact", "Verif.Dirty.mark_many_eq_each", "Verif.Dirty.mark_schedules", "Verif.Dirty.clear_schedules", "Verif.Dirty.markValueCells_covers"], "note": "The bulk variant for spilled values marks, besides the dependents of its sources, formulas whose ranges meet the bounding rectangle of the sources (stated in markValueCells_covers)."},
{"property": "C16", "status": "proved", "theorems": ["Verif.Dirty.deferred_loses_nothing"], "note": "Edits inside the batch may change what the edited vertex reads; deletion of vertices inside a scope is not covered."},
{"property": "C17", "status": "proved", "theorems": ["Verif.DirtyLease.no_event_lost", "Verif.DirtyLease.old_leases_cannot_remove", "Verif.DirtyLease.ack_removes_exactly", "Verif.DirtyLease.ack_full", "Verif.DirtyLease.refused_unchanged", "Verif.DirtyLease.only_ack_removes", "Verif.DirtyLease.release_keeps", "Verif.DirtyLease.lease_delivers_all", "Verif.DirtyLease.stale_refused", "Verif.DirtyLease.accepted_is_current"], "note": "The lease generation is a natural number; the source counter wraps after 2^64 leases."},
{"property": "C18", "status": "proved", "theorems": ["Verif.Recalc.recalculation_correct", "Verif.Recalc.histories_agree", "Verif.Recalc.evaluateAll_recalculates", "Verif.Recalc.recalculated_unique", "Verif.Recalc.run_correct", "Verif.Recalc.pass_recalculates", "Verif.Recalc.setValue_inv", "Verif.Recalc.setFormula_inv"], "note": "For all histories of value edits, formula edits, full and partial recalculations over workbooks without computed references, cyclic ones included (a formula on a cycle shows the circular-reference error, as Shows says). Formulas are arbitrary functions of what they refer to; order inside a layer is arbitrary. Edits through the change log are C49, computed references C48, plans C47."},
{"property": "C19", "status": "proved", "theorems": ["Verif.Undo.log_aligned", "Verif.Undo.seqs_increase", "Verif.Undo.log_bounded", "Verif.Undo.record_keeps_recent", "Verif.Undo.setCap_keeps_recent", "Verif.Undo.groups_contiguous", "Verif.Undo.group_of_compound", "Verif.Undo.stop_panics_iff", "Verif.Undo.stop_panics"], "note": "Sequence counters are natural numbers. Closing a compound under a cap of zero panics in the code (the cap clears the depth first); histories are over the calls that return, stop_panics_iff characterises the ones that do not."},
{"property": "C20", "status": "partial", "theorems": ["Verif.Undo.undo_restores_partial", "Verif.Undo.undo_all_partial", "Verif.Undo.redo_undo", "Verif.Undo.hist_undo", "Verif.Undo.undo_after_group_fails", "Verif.Undo.redo_blocks_undo", "Verif.Undo.formula_over_value_lost", "Verif.Undo.stale_redo", "Verif.Undo.cap_splits_action"], "note": "Proved for every history of single edits followed by compounds, with captured old contents and no cap. False otherwise: an ungrouped edit after any compound cannot be undone (undo_after_group_fails), nor one after a redo (redo_blocks_undo); an overwritten value that is not captured is lost; the redo stack survives new edits (stale_redo); a cap can split an action."},
{"property": "C21", "status": "partial", "theorems": ["Verif.Adjust.insertRows_cell", "Verif.Adjust.insertCols_cell", "Verif.Adjust.insertRows_range", "Verif.Adjust.insertCols_range", "Verif.Adjust.other_sheet_unchanged", "Verif.Adjust.adjustAst_spec", "Verif.Adjust.insert_panics", "Verif.Adjust.insert_leaves_grid", "Verif.Adjust.reversed_range_stays"], "note": "Proved for cells, for ranges in order and for whole formula trees. False otherwise: the shift can panic or leave the grid, and a range written with its corners reversed is not shifted."},
{"property": "C22", "status": "partial", "theorems": ["Verif.Adjust.deleteRows_cell", "Verif.Adjust.deleteCols_cell", "Verif.Adjust.deleteRows_range_partial", "Verif.Adjust.deleteCols_range_partial", "Verif.Adjust.other_sheet_unchanged", "Verif.Adjust.adjustAst_spec", "Verif.Adjust.endOnly_delete_fails", "Verif.Adjust.reversed_range_stays"], "note": "Ranges bounded on both sides or on the start side only. False for ranges with only an end bound (endOnly_delete_fails) and for reversed ranges."},
{"property": "C23", "status": "proved", "theorems": ["Verif.Adjust.insert_delete_rows", "Verif.Adjust.insert_delete_cols", "Verif.Adjust.insert_delete_rows_ref", "Verif.Adjust.insert_delete_cols_ref", "Verif.Adjust.roundtrip_ast"], "note": "Up to the cached original text of a reference, which the adjuster rewrites."},
{"property": "C24", "status": "partial", "theorems": ["Verif.Pretty.roundtrip_partial", "Verif.Pretty.repeat_dropped", "Verif.Pretty.postfix_captured", "Verif.Pretty.hash_over_percent", "Verif.Pretty.union_argument_split", "Verif.Pretty.union_in_call_refused", "Verif.Pretty.sole_omitted_lost", "Verif.Pretty.roundtrip_text_partial", "Verif.Pretty.upper_same", "Verif.Pretty.colon_fused", "Verif.Pretty.names_intersection_refused", "Verif.Pretty.external_range_split"], "note": "roundtrip_text_partial covers the whole path tree -> text -> tokenizer -> parser -> tree; roundtrip_partial the path from tokens. Parsing the printed tokens gives the tree back for every tree outside the listed shapes, for each of which the failure is proved: a left associative operator repeated on its right, a postfix operator over a prefix one, # over % under a tighter operator, a union as a bare argument or array cell, a union inside postfix-call arguments, a single omitted argument; and on texts the range operator between two single cells, the intersection of two names, a range in another workbook."},
{"property": "C25", "status": "partial", "theorems": ["Verif.Token.tokenize_total", "Verif.Token.tokens_cover_partial", "Verif.Token.render_partial", "Verif.Token.literal_token", "Verif.Token.sheet_prefix_lost", "Verif.Token.colon_after_bang"], "note": "Tokens of an accepted formula are in order, disjoint and cover the text after '=', except a sheet prefix before an error literal; where no '!' stands before a '#', rendering reproduces the text. The full claim fails: =S!#REF! gives the single token #REF! and the prefix S! belongs to no token (sheet_prefix_lost)."},
{"property": "C26", "status": "proved", "theorems": ["Verif.Token.brackets_nested"], "note": "Nesting of opening and closing tokens with equal kinds, and each such token is the bracket of its kind in the text."},
{"property": "C27", "status": "proved", "theorems": ["Verif.Spill.owner_iff_region", "Verif.Spill.region_exclusive", "Verif.Spill.anchors_exact", "Verif.Spill.plan_refused_iff", "Verif.Spill.commit_region", "Verif.Spill.clear_region", "Verif.Spill.commit_shows", "Verif.Spill.commit_cells", "Verif.Spill.child_kept", "Verif.Spill.engine_owner_iff_region", "Verif.Spill.unplanned_commit_shares_a_cell"], "note": "Histories of planned commits with or without a fault, clears, edits; again for whole engines with evaluations and row insertions. A commit that was not planned can share a cell (unplanned_commit_shares_a_cell)."},
{"property": "C28", "status": "proved", "theorems": ["Verif.Spill.fault_restores_values", "Verif.Spill.fault_cache_off", "Verif.Spill.fault_keeps_formulas_partial", "Verif.Spill.fault_loses_formula", "Verif.Spill.fault_leaves_vertices"], "note": "Values and ownership, for every fault point. Beyond the property: formulas survive only if no written cell holds one (fault_keeps_formulas_partial, fault_loses_formula), and empty vertices stay behind (fault_leaves_vertices)."},
{"property": "C29", "status": "partial", "theorems": ["Verif.SheetRef.ref_roundtrip", "Verif.SheetRef.ref_roundtrip_bracket_fails"], "note": "Proved for every cell, range and 3D reference whose sheet names are accepted; a local sheet name that begins with a bracketed part is read back as an external reference (ref_roundtrip_bracket_fails)."},
{"property": "C30", "status": "partial", "theorems": ["Verif.Dates.stored_datetime_partial", "Verif.Dates.stored_datetime_fails"], "note": "False for datetimes before 1899-12-31 with a non-zero time: they come back one day late."},
{"property": "C31", "status": "partial", "theorems": ["Verif.Dates.date_fn_carries", "Verif.Dates.date_fn_fields", "Verif.Dates.date_fn_unchecked", "Verif.Dates.date_fn_wraps", "Verif.Dates.time_fn_partial", "Verif.Dates.time_fn_wraps"], "note": "Carry and field round trip proved on a wide range; DATE does not refuse dates outside the calendar and its 32-bit arithmetic (also TIME's) wraps for large arguments."},
{"property": "C32", "status": "partial", "theorems": ["Verif.Dates.edate_spec", "Verif.Dates.eomonth_spec", "Verif.Dates.edate_add", "Verif.Dates.edate_unchecked"], "note": "Month arithmetic proved; results outside the calendar are not refused (edate_unchecked)."},
{"property": "C33", "status": "proved", "theorems": ["Verif.Dates.weekday_calendar", "Verif.Dates.weekday_cycle", "Verif.Dates.weekday_types"], "note": ""},
{"property": "C34", "status": "partial", "theorems": ["Verif.Dates.networkdays_spec", "Verif.Dates.networkdays_split", "Verif.Dates.workday_terminates", "Verif.Dates.workday_inverts_networkdays", "Verif.Dates.workday_backward", "Verif.Dates.workday_min_wraps"], "note": "WORKDAY with the most negative 64-bit day count does not move (release build)."},
{"property": "C35", "status": "partial", "theorems": ["Verif.Dates.datedif_years", "Verif.Dates.datedif_months", "Verif.Dates.datedif_ym", "Verif.Dates.datedif_md_partial", "Verif.Dates.datedif_md_fails"], "note": "MD is false for start days above 28: it can be negative."},
{"property": "C36", "status": "proved", "theorems": ["Verif.SheetIndex.row_range_exact", "Verif.SheetIndex.col_range_exact", "Verif.SheetIndex.rect_exact", "Verif.SheetIndex.len_exact", "Verif.SheetIndex.stale_removal_leaves_ghost"], "note": "Removals and moves name the vertex's current coordinate, as in the statement; stale_removal_leaves_ghost shows the hypothesis is needed."},
{"property": "C37", "status": "partial", "theorems": ["Verif.Adjust.copy_cell_partial", "Verif.Adjust.copy_range_partial", "Verif.Adjust.copy_formula_partial", "Verif.Adjust.copy_clamps", "Verif.Adjust.copy_skips_calls", "Verif.Adjust.copy_skips_arrays"], "note": "Proved for formulas without computed calls and array literals whose references stay on the sheet. False otherwise: references are clamped to the first row or column, and computed calls and arrays are copied unadjusted."},
{"property": "C38", "status": "partial", "theorems": ["Verif.Adjust.move_cell_partial", "Verif.Adjust.move_range_partial", "Verif.Adjust.move_other_sheet", "Verif.Adjust.move_formula_partial", "Verif.Adjust.move_skips_calls", "Verif.Adjust.move_case_sensitive", "Verif.Adjust.move_overlap_lost", "Verif.Adjust.move_changes_meaning"], "note": "The reference adjustment is proved; the move as a whole loses overlapping cells, changes references inside moved formulas, skips computed calls and compares sheet names case-sensitively."},
{"property": "C39", "status": "partial", "theorems": ["Verif.Adjust.name_insertRows", "Verif.Adjust.name_deleteRows_cell", "Verif.Adjust.name_deleteRows_range_partial", "Verif.Adjust.name_shrinks_fails", "Verif.Adjust.name_insertCols", "Verif.Adjust.name_deleteCols_cell", "Verif.Adjust.name_deleteCols_range_partial", "Verif.Adjust.name_loses_edge_column", "Verif.Adjust.name_lost_iff", "Verif.Adjust.name_elsewhere", "Verif.Adjust.name_constant"], "note": "False when the first or last row or column of the named range is deleted: exactly then the name becomes #REF! (name_lost_iff)."},
{"property": "C40", "status": "partial", "theorems": ["Verif.Adjust.insertRows_cells_partial", "Verif.Adjust.insertCols_cells_partial", "Verif.Adjust.deleteRows_cells_partial", "Verif.Adjust.deleteCols_cells_partial", "Verif.Adjust.first_edit_keeps_cells", "Verif.Adjust.tombstone_hijacks_cell"], "note": "Proved for sheets where no tombstone with a later id sits on a live cell, in particular for the first edit of any sheet. False after a deletion: tombstones are shifted too and can take over a live cell (tombstone_hijacks_cell)."},
{"property": "C41", "status": "proved", "theorems": ["Verif.Token.tokenize_total", "Verif.Token.best_effort_ordered", "Verif.Token.best_effort_clean_iff", "Verif.Token.best_effort_loses"], "note": "Also recorded: best-effort tokens may leave text between them uncovered (best_effort_loses)."},
{"property": "C42", "status": "proved", "theorems": ["Verif.Pretty.parse_total"], "note": "Termination of the model's recursion with an explicit bound linear in the number of tokens; the machine stack is not modelled."},
{"property": "C43", "status": "proved", "theorems": ["Verif.Spill.locks_disjoint", "Verif.Spill.reserve_refused_iff", "Verif.Spill.reserve_granted", "Verif.Spill.release_exact", "Verif.Spill.engine_locks_disjoint"], "note": "Up to 2^64 - 1 reservations, after which ids repeat."},
{"property": "C44", "status": "partial", "theorems": ["Verif.Spill.scalar_result", "Verif.Spill.obstructed_result", "Verif.Spill.array_result", "Verif.Spill.refused_for_ever", "Verif.Spill.spill_never_recovers", "Verif.Spill.leftover_blocks_others", "Verif.Spill.parallel_layer_aborts", "Verif.Spill.typed_over_child_aborts", "Verif.Spill.typed_formula_deleted", "Verif.Spill.insert_row_deletes_formula", "Verif.Spill.typed_over_anchor_keeps_children"], "note": "The outcome is proved for scalar results, for obstructed arrays, and for free arrays when nothing was typed into the former array. Refuted: recovery after the obstacle is gone (refused_for_ever: the reservation of a refused array is never given back, so the cell shows #SPILL! for ever); arrays over a formula of the same parallel layer abort the evaluation; so does a value typed into the former array; a formula typed there is deleted; row insertion does not move the ownership record."},
{"property": "C45", "status": "proved", "theorems": ["Verif.Pretty.chain_grouped", "Verif.Pretty.grouped_unique", "Verif.Pretty.sign_groups", "Verif.Pretty.inner_sign_groups", "Verif.Pretty.postfix_groups"], "note": "Token level; the table levels in the specification is written independently of the binding powers. chain_grouped and grouped_unique together determine the tree of every chain. Signs and postfix operators are stated for one infix operator beside them."},
{"property": "C46", "status": "partial", "theorems": ["Verif.Recalc.targets_correct_partial", "Verif.Recalc.evaluateTargets_agrees", "Verif.Recalc.name_cycle_wrong"], "note": "Proved for workbooks in which no name is on a cycle. Refuted for a name on a cycle (name_cycle_wrong): evaluating a cell of the cycle replaces the error in the name by a value."},
{"property": "C47", "status": "partial", "theorems": ["Verif.Recalc.plan_correct_partial", "Verif.Recalc.evaluatePlan_recalculates", "Verif.Recalc.plan_clean_wrong", "Verif.Recalc.plan_name_wrong"], "note": "Proved for workbooks without names and for plans built while the formulas inside ranges are dirty. Refuted otherwise: a plan built on an up-to-date workbook orders a range formula before the formulas in its range (plan_clean_wrong); names are neither ordered nor evaluated (plan_name_wrong)."},
{"property": "C48", "status": "partial", "theorems": ["Verif.Recalc.evaluateAll_dynamic_partial", "Verif.Recalc.replan_wrong", "Verif.Recalc.self_indirect_wrong"], "note": "Proved when the computed references found before the pass are still right after it and none meets its own cell. Refuted otherwise: after a second pass the dependents of a computed reference keep the value of the first (replan_wrong); a computed reference to its own cell is not reported (self_indirect_wrong)."},
{"property": "C49", "status": "partial", "theorems": ["Verif.Recalc.loggedFormula_inv_partial", "Verif.Recalc.logged_edit_wrong", "Verif.Recalc.marked_edit_right", "Verif.Recalc.volatile_name_wrong"], "note": "Proved for formula edits that do not mark the topology while no schedule is cached. Refuted otherwise: with a cached schedule the edited formula is evaluated in the order of the old formula (logged_edit_wrong; the same edit through set_cell_formula is right, marked_edit_right); a name defined by a volatile formula is never recalculated (volatile_name_wrong)."},
{"property": "C50", "status": "partial", "theorems": ["Verif.Lookup.lookup_wildcard_correct", "Verif.Lookup.run_total", "Verif.Lookup.textLike_correct_partial", "Verif.Lookup.toLike_correct_partial", "Verif.Lookup.readLike_plain_partial", "Verif.Lookup.textLike_quest_wrong", "Verif.Lookup.textLike_escape_wrong", "Verif.Lookup.readLike_percent_wrong", "Verif.Lookup.toLike_underscore_wrong", "Verif.Lookup.toLike_escape_wrong"], "note": "Proved in full, with termination, for the matcher of the lookup functions. The matcher of single criteria is proved without ~ and with ? only on ASCII text; the matcher of whole columns without ~ % _ and backslash. Refuted outside of these. SEARCH is under C51."},
{"property": "C51", "status": "partial", "theorems": ["Verif.Lookup.find_correct_partial", "Verif.Lookup.search_correct_partial", "Verif.Lookup.search_escape_wrong", "Verif.Lookup.search_case_wrong", "Verif.Lookup.search_empty_ignores_start", "Verif.Lookup.find_empty_ignores_start", "Verif.Lookup.find_empty_wrong"], "note": "Proved for a nonempty text sought and a start of at least 1; SEARCH without ~, and with case ignored for ASCII letters only. Refuted: ~ does not escape, letters outside ASCII keep their case, an empty text sought ignores the start."},
{"property": "C52", "status": "partial", "theorems": ["Verif.Lookup.countIf_correct_partial", "Verif.Lookup.countIf_storage_partial", "Verif.Lookup.countIfs_correct_partial", "Verif.Lookup.countIf_nonblank_wrong", "Verif.Lookup.countIf_blank_wrong", "Verif.Lookup.countIf_number_text_wrong", "Verif.Lookup.countIf_storage_wrong", "Verif.Lookup.countIfs_range_wrong", "Verif.Lookup.countIf_beyond_wrong", "Verif.Lookup.countIfs_order_wrong", "Verif.Lookup.sumIfs_tail_wrong", "Verif.Lookup.sumIfs_correct_partial"], "note": "Proved for the combinations of criterion and stored value named in Clear, and for COUNTIFS over ranges of equal length of at least two rows. Refuted outside: the count depends on storage, on the used part of the sheet, on the order of the criteria. SUMIFS as COUNTIFS; rows past the used part of a criteria column are refuted (sumIfs_tail_wrong)."},
{"property": "C53", "status": "partial", "theorems": ["Verif.Lookup.criterion_number", "Verif.Lookup.parseCriteria_compare", "Verif.Lookup.parseCriteria_text_partial", "Verif.Lookup.criterion_quoted_partial", "Verif.Lookup.parseCriteria_wrong"], "note": "Proved for numbers after any operator, and for = and <> before texts with or without quotes. Refuted for other texts: >b becomes equality with the whole criterion, =a* loses its wildcard."},
{"property": "C54", "status": "partial", "theorems": ["Verif.Lookup.match_number_partial", "Verif.Lookup.match_text_partial", "Verif.Lookup.lookup_number_partial", "Verif.Lookup.lookup_text_partial", "Verif.Lookup.match_tolerance_wrong", "Verif.Lookup.match_numeric_text_wrong", "Verif.Lookup.match_array_differs", "Verif.Lookup.match_error_skipped"], "note": "Proved for numbers that are equal or further apart than the tolerance, and for texts that do not read as numbers. Refuted: numbers out of order by less than the tolerance pass the check of the order, as do texts that read as numbers; a range not in order is #N/A where the array is searched; errors are passed over."},
{"property": "C55", "status": "partial", "theorems": ["Verif.Lookup.exact_array_partial", "Verif.Lookup.exact_view_partial", "Verif.Lookup.exact_index_partial", "Verif.Lookup.matchExact_correct_partial", "Verif.Lookup.matchExact_wild_partial", "Verif.Lookup.xmatch_correct_partial", "Verif.Lookup.xlookup_correct_partial", "Verif.Lookup.exact_array_range_wrong", "Verif.Lookup.exact_wild_wrong", "Verif.Lookup.exact_cache_wrong", "Verif.Lookup.matchExact_calls_wrong", "Verif.Lookup.xlookup_unsorted_wrong", "Verif.Lookup.xmatch_text_wrong", "Verif.Lookup.xmatch_blank_wrong", "Verif.Lookup.index_near_integer", "Verif.Lookup.xlookup_incomparable"], "note": "Proved for the entries named in Plain, for wildcards, and for the next smaller or larger number. Refuted outside: array and range differ on blanks, booleans and numbers written as texts; the answer to the same lookup changes after three calls (matchExact_calls_wrong); XLOOKUP fails on unordered entries, and neither finds the next smaller text."},
{"property": "C56", "status": "partial", "theorems": ["Verif.Store.lanes_roundtrip", "Verif.Store.overlay_last_write", "Verif.Store.overlay_last_write_exact", "Verif.Store.overlay_covered", "Verif.Store.overlay_len", "Verif.Store.overlay_any", "Verif.Store.overlay_iter", "Verif.Store.overlay_slice", "Verif.Store.bytes_reported", "Verif.Store.bytes_exact_partial", "Verif.Store.bytes_drift_wrong", "Verif.Store.run_zero_wrong"], "note": "Values, length, ranges, listing and slices are proved, up to floats that compare equal (a run keeps the sign of its first zero, run_zero_wrong). The byte count is proved for batches, range erasures and clearing, and for single writes without fragments or without a cell at that offset; refuted for a single write over a single cell beside a fragment (bytes_drift_wrong)."},
{"property": "C57", "status": "proved", "theorems": ["Verif.Store.arrays_agree", "Verif.Store.select_cells", "Verif.Store.pointScalar_cells"], "note": "Proved for all six arrays and all code paths. That the lower-cased text of a stored number is null while that of a written one is its digits is a property of the base array passed in; see countIf_storage_wrong under C52."},
{"property": "C58", "status": "partial", "theorems": ["Verif.Store.sheet_reads_partial", "Verif.Store.sheet_reads_exact_partial", "Verif.Store.ingested_reads_partial", "Verif.Store.ingest_reads", "Verif.Store.insertRows_grid", "Verif.Store.deleteRows_grid", "Verif.Store.ensureRows_grid", "Verif.Store.insertCols_grid", "Verif.Store.deleteCols_grid", "Verif.Store.reach_grid", "Verif.Store.compactUser_good", "Verif.Store.compactComputed_good", "Verif.Store.slices_fit", "Verif.Store.big_insert_wrong", "Verif.Store.no_columns_wrong", "Verif.Store.columns_gone_wrong", "Verif.Store.raw_entry_wrong"], "note": "Proved for all histories in which no more rows are inserted at once than a chunk holds, and rows are inserted and deleted only while there is a column or no row. Both restrictions are needed: refuted without them (big_insert_wrong, no_columns_wrong, columns_gone_wrong). The raw overlay write used by undo is not an operation of the history; it breaks the property (raw_entry_wrong)."},
{"property": "C59", "status": "proved", "theorems": ["Verif.Plane.AxisRange.contains_iff", "Verif.Plane.AxisRange.intersects_iff", "Verif.Plane.AxisRange.intersection_spec", "Verif.Plane.AxisRange.containsRange_iff", "Verif.Plane.AxisRange.normalized_has", "Verif.Plane.AxisRange.projectThroughOffset_has", "Verif.Plane.Region.containsKey_iff", "Verif.Plane.Region.intersects_iff", "Verif.Plane.Region.intersection_spec", "Verif.Plane.Region.containsRegion_iff", "Verif.Plane.Region.normalized_has", "Verif.Plane.Region.asPoint_some", "Verif.Plane.Index.query_exact"], "note": "query is modelled; the variant that stops after a bounded number of candidates (query_bounded) is not."},
{"property": "C60", "status": "proved", "theorems": ["Verif.Plane.stale_marked", "Verif.Plane.marked_exact", "Verif.Plane.stale_iff", "Verif.Plane.readProjections_spec", "Verif.Plane.constant_reads", "Verif.Plane.Span.deps_spec", "Verif.Plane.Closure.closure_complete", "Verif.Plane.Closure.closure_exact", "Verif.Plane.Closure.consumerQuery_spec", "Verif.Plane.project_exact", "Verif.Plane.project_sound", "Verif.Plane.readRegion_covers", "Verif.Plane.wholeCols_sound"], "note": "The table of functions is a parameter. Modelled from the parsed formula at the anchor to the marked cells; that the engine reports every changed region, and the formulas outside spans, are not part of this model."},
{"property": "C61", "status": "partial", "theorems": ["Verif.Plane.Edit.unchanged_tracks", "Verif.Plane.Edit.moved_tracks", "Verif.Plane.Edit.removed_gone", "Verif.Plane.Edit.halves_tracks_partial", "Verif.Plane.Edit.halves_shown", "Verif.Plane.Edit.run_tracks_partial", "Verif.Plane.Edit.compact_tracks_partial", "Verif.Plane.Edit.compact_reads", "Verif.Plane.Edit.compact_gives_up", "Verif.Plane.Edit.skipped_noOp", "Verif.Plane.Edit.fresh_good", "Verif.Plane.Edit.compact_misreads_offset", "Verif.Plane.Edit.compact_misreads_absolute", "Verif.Plane.Edit.compact_misreads_other_sheet", "Verif.Plane.Edit.compact_misreads_origin", "Verif.Plane.Edit.split_misreads_shared", "Verif.Plane.Edit.not_all_follow"], "note": "Proved for every span that stays, moves or is removed; for spans that are cut in two, provided the stored formula was not shared with a span that started elsewhere; for any sequence of operations in which no span is shortened; for a single shortening of a span that starts before the deleted rows and reads only its own row, or constants off the deleted rows. The full statement is false: compact_misreads_offset, compact_misreads_absolute, compact_misreads_other_sheet, compact_misreads_origin and split_misreads_shared each give a span that reads other cells afterwards. Missing: what other sequences with shortened spans still guarantee. Constants that vary along a span are not modelled."},
{"property": "C62", "status": "partial", "theorems": ["Verif.Arena.stored_is_read", "Verif.Arena.store_keeps", "Verif.Arena.refs_apart", "Verif.Arena.text_again", "Verif.Arena.image_eq", "Verif.Arena.large_int_panics", "Verif.Arena.large_int_panics_32", "Verif.Arena.wide_int_wrong", "Verif.Arena.date_becomes_dateTime", "Verif.Arena.time_becomes_dateTime", "Verif.Arena.error_payload_lost", "Verif.Arena.ragged_reshaped", "Verif.Arena.empty_row_lost"], "note": "Proved for every list of storable values (Storable names them) of up to 2^28 parts in total: storing succeeds and all references give their values at the end; for other values, store_keeps says what comes back. The statement without exceptions is false: large_int_panics, wide_int_wrong, date_becomes_dateTime, time_becomes_dateTime, error_payload_lost, ragged_reshaped and empty_row_lost. Missing: that the serial-number conversions keep date-times (chrono is a parameter)."},
{"property": "C63", "status": "partial", "theorems": ["Verif.Arena.formulas_kept", "Verif.Arena.formula_same", "Verif.Arena.follows_sheet", "Verif.Arena.same_name", "Verif.Arena.unknown_stays", "Verif.Arena.readsAst_det", "Verif.Arena.long_call_cut", "Verif.Arena.call_lost", "Verif.Arena.big_array_panics", "Verif.Arena.spelling_lost", "Verif.Arena.last_row_opens"], "note": "Proved for every list of formulas without the exceptions (Kept names them), of up to 2^28 parts, for all hash functions and all registries. The statement without exceptions is false: long_call_cut, call_lost, big_array_panics, spelling_lost, last_row_opens. Missing: the volatility mark and the source token, which the code does not store."},
{"property": "C64", "status": "partial", "theorems": ["Verif.Arena.getId_iff", "Verif.Arena.names_differ", "Verif.Arena.new_sheet_fresh", "Verif.Arena.rename_only", "Verif.Arena.remove_only", "Verif.Arena.rename_refused", "Verif.Arena.too_many_sheets", "Verif.Arena.rename_revives"], "note": "Proved for every history of up to 65536 operations; beyond that sheet numbers wrap around and a new name leads to an old sheet (too_many_sheets). Lowercasing is a parameter of which only the empty text is used."},
{"property": "C65", "status": "partial", "theorems": ["Verif.Sheets.sheets_as_specified", "Verif.Sheets.read_as_specified", "Verif.Sheets.taken_refused", "Verif.Sheets.refused_rename_swaps", "Verif.Sheets.refused_rename_harmless", "Verif.Sheets.rename_missing_loses", "Verif.Sheets.case_rename_loses", "Verif.Sheets.write_other_case_unseen", "Verif.Sheets.duplicate_other_case_empty"], "note": "Proved for all histories in which names are used in the spelling of the registry and renamings are to free names (Careful); the statement without this is false: refused_rename_swaps, rename_missing_loses, case_rename_loses, write_other_case_unseen, duplicate_other_case_empty. Not modelled: formulas on the sheets (C66), defined names, the transaction log."},
{"property": "C66", "status": "partial", "theorems": ["Verif.Sheets.formulas_survive", "Verif.Sheets.remove_add_restores", "Verif.Sheets.heal_step", "Verif.Sheets.half_healed_forgets", "Verif.Sheets.touched_not_healed", "Verif.Sheets.other_case_not_healed"], "note": "Proved for all histories in which sheets come back by adding or renaming in the spelling in which they went, and no sheet is removed on which a half restored formula depends (Allowed); the statement without this is false: half_healed_forgets, touched_not_healed, other_case_not_healed. Missing: names, tables and 3D references in formulas, and the recomputation of values."},
{"property": "C67", "status": "partial", "theorems": ["Verif.Template.payload_shape", "Verif.Template.bindingKey_inj", "Verif.Template.computes_own_iff", "Verif.Template.origin_computes_own", "Verif.Template.span_cells", "Verif.Template.span_constants", "Verif.Template.span_constant", "Verif.Template.span_computes_iff", "Verif.Template.span_computes_own", "Verif.Template.span_computes_same", "Verif.Template.text_one_node", "Verif.Template.shared_node_wrong"], "note": "span_computes_iff says exactly when a cell computes its own formula: when all cells of the span have one value (span_constant: then all have the stored formula) or its constants agree wherever constants of the stored formula share a node. shared_node_wrong shows that the statement without this is false, text_one_node that equal texts do share a node. Assumed (Cand.Ok, Num.Laws): constants are not negative (the parser writes a sign), no NaN and no negative zero, at most 65536 constants in a formula, references in the sheet. Missing: dates and times as constants, spans of 2^32 cells, the rejection of spans that read their own cells."},
{"property": "C68", "status": "partial", "theorems": ["Verif.Template.commit_ok", "Verif.Template.moved_cell_iff", "Verif.Template.own_template_iff", "Verif.Template.shared_template_iff", "Verif.Template.rising_wrong", "Verif.Template.shared_template_wrong", "Verif.Template.shared_one_wrong"], "note": "own_template_iff: for all sequences of shifts along one axis a cell of a span with its own template computes its moved formula if and only if the span has one value or the table of constants does not change along this axis (dictionaries and equal constants do not, other arithmetic progressions do). shared_template_iff: a span that shares the template of an earlier one computes, after any shift, the constants of the earlier one. rising_wrong, shared_template_wrong and shared_one_wrong refute the statement in general. Missing: shifts that rewrite absolute references, splits, compaction."},
{"property": "C69", "status": "partial", "theorems": ["Verif.Template.same_key", "Verif.Template.forced_key", "Verif.Template.memo_values", "Verif.Template.memo_values_moved", "Verif.Template.memo_format_kept", "Verif.Template.captured_iff", "Verif.Template.memo_reads", "Verif.Template.one_reads", "Verif.Template.dates_lost", "Verif.Template.dates_lost_fixed", "Verif.Template.short_target", "Verif.Template.fives_not_honest"], "note": "memo_values: for all formulas, contents and orders of the groups the values are those of evaluation cell by cell, if results depend on their operands and arguments only (World.Honest). memo_reads and one_reads: exactly what is read afterwards; cells that are not the first of their group keep their old format. dates_lost, dates_lost_fixed and short_target refute the statement for formats and for SUMIF with a short target. Missing: which built-in functions are honest; the tests that choose between the two ways."},
{"property": "C70", "status": "partial", "theorems": ["Verif.Arrays.sort_by_key", "Verif.Arrays.sort_cols_by_key", "Verif.Arrays.sort_numbers_partial", "Verif.Arrays.sort_texts_partial", "Verif.Arrays.sort_perm", "Verif.Arrays.sortby_numbers_partial", "Verif.Arrays.sortby_length", "Verif.Arrays.insertion_sorter", "Verif.Arrays.mixed_unsorted", "Verif.Arrays.texts_unsorted", "Verif.Arrays.texts_order_matters", "Verif.Arrays.close_unsorted", "Verif.Arrays.blank_between", "Verif.Arrays.index_below_one"], "note": "sort_by_key and sort_cols_by_key: for every procedure that sorts what is ordered (Sorter; insertion_sorter: the insertion sort of the standard library is one) and all keys that compare as their values in a linear order. sort_numbers_partial, sort_texts_partial, sortby_numbers_partial: numbers and plain texts are such keys. sort_perm: no row is lost or made up, whatever the keys. The other theorems refute the statement for mixed columns, for texts of which some read as numbers, for close numbers and empty cells. Missing: SORTBY by texts."},
{"property": "C71", "status": "partial", "theorems": ["Verif.Arrays.truthy_iff", "Verif.Arrays.filter_rows", "Verif.Arrays.filter_column", "Verif.Arrays.filter_one_row", "Verif.Arrays.filter_columns_wrong", "Verif.Arrays.filter_error_ignored", "Verif.Arrays.unique_rows", "Verif.Arrays.unique_nodup", "Verif.Arrays.unique_cols", "Verif.Arrays.unique_cols_wrong", "Verif.Arrays.unique_case", "Verif.Arrays.unique_none"], "note": "filter_rows, unique_rows: the statement for rows, all arrays. filter_columns_wrong, filter_error_ignored, unique_cols_wrong refute it for columns and errors. unique_cols: the columns are the right ones but come out as rows."},
{"property": "C72", "status": "proved", "theorems": ["Verif.Arrays.transpose_cells", "Verif.Arrays.transpose_twice", "Verif.Arrays.take_rows", "Verif.Arrays.drop_rows", "Verif.Arrays.take_both", "Verif.Arrays.take_beyond", "Verif.Arrays.vstack_rows", "Verif.Arrays.vstack_widths", "Verif.Arrays.hstack_rows", "Verif.Arrays.hstack_heights", "Verif.Arrays.vstack_take_drop", "Verif.Arrays.choosecols_cells", "Verif.Arrays.chooserows_rows", "Verif.Arrays.choose_beyond", "Verif.Arrays.tocol_cells", "Verif.Arrays.torow_cells", "Verif.Arrays.sequence_cells"], "note": "All rectangular arrays that are not empty. Counts are integers without bounds and numbers are rationals: the overflow of the least integer and the rounding of sums in SEQUENCE are left out."},
{"property": "C73", "status": "partial", "theorems": ["Verif.Texts.left_spec", "Verif.Texts.right_spec", "Verif.Texts.left_right", "Verif.Texts.mid_spec", "Verif.Texts.replace_spec_partial", "Verif.Texts.replace_beyond", "Verif.Texts.places_bad", "Verif.Texts.find_iff", "Verif.Texts.find_none", "Verif.Texts.find_mid", "Verif.Texts.find_empty", "Verif.Texts.search_iff", "Verif.Texts.search_none", "Verif.Texts.asciiLower_eq", "Verif.Texts.search_tilde", "Verif.Texts.search_accents", "Verif.Texts.trim_words", "Verif.Texts.trim_trim", "Verif.Texts.trim_newline"], "note": "The statement for all texts, patterns and places, with the exceptions it names: replace_beyond, find_empty, search_tilde, search_accents and trim_newline show that they are real. Fits is the relation of patterns and texts, FitsAt where one begins. The white space of TRIM is a parameter."},
{"property": "C74", "status": "partial", "theorems": ["Verif.Texts.splits_exists", "Verif.Texts.splits_unique", "Verif.Texts.splits_join", "Verif.Texts.substitute_spec", "Verif.Texts.substitute_self", "Verif.Texts.substitute_count", "Verif.Texts.substitute_nth", "Verif.Texts.textbefore_spec", "Verif.Texts.textafter_spec", "Verif.Texts.before_after", "Verif.Texts.textsplit_one", "Verif.Texts.textsplit_ignore", "Verif.Texts.textsplit_rows_partial", "Verif.Texts.textsplit_empty_row", "Verif.Texts.textsplit_panics", "Verif.Texts.textjoin_spec", "Verif.Texts.join_split", "Verif.Texts.split_join"], "note": "Splits is the independent description of the parts; splits_exists and splits_unique: there is exactly one list. The other theorems give the results of the functions by the parts, for all texts and delimiters that are not empty. textsplit_rows_partial leaves out empty rows, as the code does (textsplit_empty_row); textsplit_panics: a panic. Missing: several delimiters at once."},
{"property": "C75", "status": "partial", "theorems": ["Verif.Ops.sanitize_spec", "Verif.Ops.broadcast_one", "Verif.Ops.unary_number", "Verif.Ops.compare_cell", "Verif.Ops.broadcast_arrays", "Verif.Ops.broadcast_unfit", "Verif.Ops.broadcast_right", "Verif.Ops.broadcast_left", "Verif.Ops.compare_arrays", "Verif.Ops.compare_error", "Verif.Ops.toArith_iff", "Verif.Ops.arith_ok", "Verif.Ops.arith_error", "Verif.Ops.arith_finite", "Verif.Ops.power_ok", "Verif.Ops.power_zero", "Verif.Ops.unary_cells", "Verif.Ops.concat_text", "Verif.Ops.concat_error", "Verif.Ops.concat_array"], "note": "Cells of the result for all arrays that fit, single cells by the numbers of the operands, errors and results that are not finite. Numbers are rationals with the infinities and NaN; reading texts as numbers is a parameter. broadcast_unfit, concat_error, concat_array and power_zero are the exceptions the statement names."},
{"property": "C76", "status": "partial", "theorems": ["Verif.Ops.cmpStr_lt", "Verif.Ops.cmpStr_eq", "Verif.Ops.cmpStr_swap", "Verif.Ops.cmpStr_trans", "Verif.Ops.holds_ops", "Verif.Ops.holds_swap", "Verif.Ops.holds_one", "Verif.Ops.holds_total_partial", "Verif.Ops.holds_nan", "Verif.Ops.holds_nan_self", "Verif.Ops.holds_numbers", "Verif.Ops.holds_texts", "Verif.Ops.holds_trans_partial", "Verif.Ops.holds_cycle", "Verif.Ops.holds_eq_intransitive", "Verif.Ops.holds_kinds", "Verif.Ops.holds_empty"], "note": "holds_one, holds_ops and holds_swap: how the six operators belong together, for all values; holds_total_partial: one of three holds unless a NaN is read; holds_trans_partial: transitive among numbers and among texts. holds_cycle, holds_eq_intransitive, holds_nan, holds_kinds, holds_empty: what is refuted."},
{"property": "C77", "status": "partial", "theorems": ["Verif.Ops.Ranges.extent_covers_partial", "Verif.Ops.Ranges.extent_inside", "Verif.Ops.Ranges.extent_both_open", "Verif.Ops.Ranges.at_closed", "Verif.Ops.Ranges.at_rectangle", "Verif.Ops.Ranges.at_range_closed", "Verif.Ops.Ranges.at_row_partial", "Verif.Ops.Ranges.at_open_rectangle", "Verif.Ops.Ranges.at_column_partial", "Verif.Ops.Ranges.at_column_below", "Verif.Ops.Ranges.at_column_single", "Verif.Ops.Ranges.combine_smallest", "Verif.Ops.Ranges.combine_sheets", "Verif.Ops.Ranges.combine_reversed"], "note": "Extents for all ranges and used cells; which rows and columns are used is a parameter that must be right (Right). extent_both_open, at_column_below, at_column_single and combine_reversed are the exceptions the statement names."},
{"property": "C78", "status": "partial", "theorems": ["Verif.Local.visit_reads", "Verif.Local.value_by_reads_partial", "Verif.Local.value_by_declared_partial", "Verif.Local.eval_halts", "Verif.Local.let_range_wrong"], "note": "visit_reads: the stack of the visitor collects the mentions outside of local scopes, in order; value_by_declared_partial: agreement on what is collected is agreement on the value, for formulas with hidden = []; eval_halts: every formula has a value. let_range_wrong is the exception. Values, references and builtin functions are opaque; functions that return references are left out."},
{"property": "C79", "status": "partial", "theorems": ["Verif.Local.bound_is_value_partial", "Verif.Local.let_is_value_partial", "Verif.Local.call_is_value_partial", "Verif.Local.let_nested", "Verif.Local.params_spec", "Verif.Local.let_is_value_wrong"], "note": "Substitution for all bodies in which no free x is read as a range (Plain), for values; a local function bound to a name is covered by call_is_value_partial for one parameter. let_is_value_wrong is the exception."},
{"property": "C80", "status": "partial", "theorems": ["Verif.Scc.error_ends_partial", "Verif.Scc.exact_solves", "Verif.Scc.exact_unique", "Verif.Scc.solution_unique", "Verif.Scc.budget_never_partial", "Verif.Scc.evaluate_ends", "Verif.Scc.passes_bounded", "Verif.Scc.forward_one_pass", "Verif.Scc.stamped_are_cycles", "Verif.Scc.excluded_circ", "Verif.Scc.stamped_solves_partial", "Verif.Scc.analyze_right", "Verif.Scc.late_solution", "Verif.Scc.circ_without_cycle", "Verif.Scc.stamped_solves_wrong"], "note": "error_ends_partial: the two endings, for formulas without array results; exact_unique: the values are the only solution; stamped_solves_partial: the cells that are not stamped have the values of their formulas if they read no more than before; analyze_right: the analysis of live_graph.rs is correct. circ_without_cycle and stamped_solves_wrong are the exceptions. Formulas are programs of reads; results that are arrays are only treated as exclusions."},
{"property": "C81", "status": "proved", "theorems": ["Verif.Scc.converged_close", "Verif.Scc.converged_solves", "Verif.Scc.unchanged_solves", "Verif.Scc.one_iteration", "Verif.Scc.known_right", "Verif.Scc.evaluate_ends", "Verif.Scc.passes_bounded", "Verif.Scc.Conv.conv_iff", "Verif.Scc.Conv.close_symm", "Verif.Scc.Conv.close_mono", "Verif.Scc.Conv.close_self", "Verif.Scc.Conv.conv_below", "Verif.Scc.Conv.converged_values"], "note": "For all formulas, limits and tests of convergence; conv_iff gives the comparison of convergence.rs, with exact differences instead of rounded ones."},
{"property": "C82", "status": "partial", "theorems": ["Verif.Base.toDec_eq", "Verif.Base.read_back", "Verif.Base.ofDec_defined", "Verif.Base.ofDec_places", "Verif.Base.write_back", "Verif.Base.cross_eq", "Verif.Base.cross_reads", "Verif.Base.decimal_base", "Verif.Base.base_spec", "Verif.Base.arabic_eq", "Verif.Base.arabic_neg", "Verif.Base.classic_numeral", "Verif.Base.arabic_roman", "Verif.Base.roman_defined", "Verif.Base.roman_injective", "Verif.Base.forms_wrong"], "note": "Proved for all even bases up to 16 and all bases of BASE and DECIMAL; numbers of BASE below 2^63. forms_wrong: the forms 1 to 4 of ROMAN write the wrong texts."},
{"property": "C83", "status": "partial", "theorems": ["Verif.Rows.set_spec", "Verif.Rows.setRange_spec", "Verif.Rows.insertRows_spec", "Verif.Rows.deleteRows_spec", "Verif.Rows.isEmpty_iff", "Verif.Rows.hidden_history", "Verif.Rows.mask_history", "Verif.Rows.visible_history", "Verif.Rows.stored_iff", "Verif.Rows.insert_delete", "Verif.Rows.undo_restores_partial", "Verif.Rows.step_hidden", "Verif.Rows.undo_insert_wrong", "Verif.Rows.undo_hide_insert_wrong", "Verif.Rows.version_repeats"], "note": "Proved for all histories in which rows stay below u32::MAX. Undo only for actions that hide and show rows: undo_insert_wrong shows that undo of inserted rows leaves other rows hidden; version_repeats refutes that the version tells states apart."},
{"property": "C84", "status": "partial", "theorems": ["Verif.Agg.slices_perm", "Verif.Agg.sum_ranges", "Verif.Agg.count_ranges", "Verif.Agg.average_ranges", "Verif.Agg.max_ranges", "Verif.Agg.min_ranges", "Verif.Agg.countA_ranges", "Verif.Agg.countBlank_partial", "Verif.Agg.maxOf_spec", "Verif.Agg.minOf_spec", "Verif.Agg.subtotal_names", "Verif.Agg.subtotal_countA", "Verif.Agg.subtotal_error", "Verif.Agg.subtotal_hidden", "Verif.Agg.aggregate_subtotal", "Verif.Agg.aggregate_ignores", "Verif.Agg.aggregate_ignores_all", "Verif.Agg.subtotal_order", "Verif.Agg.sum_order", "Verif.Agg.sum_parts", "Verif.Agg.count_parts", "Verif.Agg.average_count", "Verif.Agg.average_between", "Verif.Agg.variance_sums", "Verif.Agg.variance_shift", "Verif.Agg.sum_args", "Verif.Agg.average_args", "Verif.Agg.max_args", "Verif.Agg.min_args", "Verif.Agg.count_args", "Verif.Agg.scalar_error", "Verif.Agg.subtotal_args", "Verif.Agg.keepRows_history", "Verif.Agg.error_by_storage", "Verif.Agg.subtotal_count_wrong", "Verif.Agg.count_error_wrong", "Verif.Agg.countBlank_below_wrong", "Verif.Agg.text_value_differs"], "note": "Numbers are rational, so rounding is left out. error_by_storage, subtotal_count_wrong and countBlank_below_wrong refute the parts named in the property."},
{"property": "C85", "status": "partial", "theorems": ["Verif.Snap.rows_current_partial", "Verif.Snap.cols_current_partial", "Verif.Snap.after_edit", "Verif.Snap.rows_repeat", "Verif.Snap.spill_stale", "Verif.Snap.Index.index_current_partial", "Verif.Snap.Index.index_cells_partial", "Verif.Snap.Index.index_after_edit", "Verif.Snap.Index.index_bytes", "Verif.Snap.Index.index_kept", "Verif.Snap.Index.index_full", "Verif.Snap.Index.index_threshold", "Verif.Snap.Index.index_built", "Verif.Snap.Index.index_stale"], "note": "Proved when evaluation changes nothing relevant between a question and the next edit. In general it is false: spill_stale (a spill after the dependencies of SUM(A:A) were asked for) and index_stale (a lookup range whose formulas depend on a volatile cell). index_kept and index_full show that indexes of earlier snapshots are never dropped, so a full cache stays full."},
{"property": "C86", "status": "partial", "theorems": ["Verif.Order.small_spec", "Verif.Order.large_small", "Verif.Order.large_spec", "Verif.Order.small_mono", "Verif.Order.percentile_inc_linear", "Verif.Order.percentile_inc_ends", "Verif.Order.percentile_inc_error", "Verif.Order.percentile_inc_mono", "Verif.Order.percentile_exc_error", "Verif.Order.percentile_exc_inc", "Verif.Order.quartile_inc_percentile", "Verif.Order.quartile_exc_percentile", "Verif.Order.median_agrees", "Verif.Order.median_half", "Verif.Order.order_perm", "Verif.Order.rank_eq_spec", "Verif.Order.rank_avg_spec", "Verif.Order.rank_avg_both", "Verif.Order.rank_small_wrong", "Verif.Order.mode_single_head", "Verif.Order.mode_mult_partial", "Verif.Order.trimmean_spec", "Verif.Order.trimmean_zero", "Verif.Order.laws_perm", "Verif.Order.percentrank_outside", "Verif.Order.percentrank_inc_inverse", "Verif.Order.percentrank_exc_inverse", "Verif.Order.percentrank_cut", "Verif.Order.frequency_spec", "Verif.Order.collect_spec", "Verif.Order.no_panic_partial", "Verif.Order.nan_panics"], "note": "Numbers are rational; rounding is left out. RANK and MODE use an absolute tolerance of 1e-12, so they are wrong for small numbers (rank_small_wrong) and mode_mult_partial asks for numbers that are equal or not within it. The functions end unless a text argument is read as nan: no_panic_partial and nan_panics."},
{"property": "C87", "status": "partial", "theorems": ["Verif.Fin.fv_balance", "Verif.Fin.pmt_fv", "Verif.Fin.pv_fv", "Verif.Fin.fv_pv", "Verif.Fin.fv_pmt", "Verif.Fin.nper_fv", "Verif.Fin.nper_none", "Verif.Fin.ipmt_end", "Verif.Fin.ppmt_sum_end", "Verif.Fin.ppmt_ipmt", "Verif.Fin.ipmt_due", "Verif.Fin.ppmt_due_wrong", "Verif.Fin.cum_sum", "Verif.Fin.cumprinc_wrong", "Verif.Fin.cumipmt_wrong", "Verif.Fin.nominal_effect", "Verif.Fin.effect_nominal", "Verif.Fin.rri_grows", "Verif.Fin.pduration_grows", "Verif.Fin.npv_cons", "Verif.Fin.npv_pv", "Verif.Fin.ispmt_left", "Verif.Fin.sln_total", "Verif.Fin.syd_total", "Verif.Fin.ddb_spec", "Verif.Fin.ddb_zero", "Verif.Fin.db_bounds", "Verif.Fin.db_residual", "Verif.Fin.dollarde_reads", "Verif.Fin.dollarfr_writes", "Verif.Fin.dollar_neg", "Verif.Fin.dollar_wrong", "Verif.Fin.cum_iff", "Verif.Fin.db_ends"], "note": "Over real numbers, without rounding. False in the code: interest of payments at the beginning of periods (ipmt_due, ppmt_due_wrong), CUMIPMT and CUMPRINC (cumipmt_wrong, cumprinc_wrong), and DOLLARDE after DOLLARFR for amounts that are not whole parts (dollar_wrong). IRR, RATE, XIRR and MIRR are not part of this claim."},
{"property": "C88", "status": "partial", "theorems": ["Verif.Solve.irrNpv_cons", "Verif.Solve.irrDeriv_spec", "Verif.Solve.brent_found", "Verif.Solve.irr_partial", "Verif.Solve.bracketed_found", "Verif.Solve.irr_needs_two", "Verif.Solve.irr_gives", "Verif.Solve.irr_unique", "Verif.Solve.irr_half_wrong", "Verif.Solve.rate_end", "Verif.Solve.rate_due", "Verif.Solve.rate_deriv_due", "Verif.Solve.rate_fixed", "Verif.Solve.mirr_grows", "Verif.Solve.xirr_found", "Verif.Solve.xirr_signs", "Verif.Solve.xnpv_yearly", "Verif.Solve.xnpv_shift"], "note": "Over real numbers, without rounding. irr_partial leaves open that the 200 rounds may not be enough. IRR is #NUM! where one of the rates it looks at is the root (irr_half_wrong), which irr_gives excludes. RATE with payments at the beginning does not use the derivative (rate_due, rate_deriv_due)."},
{"property": "C89", "status": "partial", "theorems": ["Verif.Round.round_spec", "Verif.Round.nearest_unique", "Verif.Round.rounddown_spec", "Verif.Round.roundup_spec", "Verif.Round.round_nan", "Verif.Round.round_inf", "Verif.Round.mod_spec", "Verif.Round.mod_error", "Verif.Round.quotient_spec", "Verif.Round.ceiling_spec", "Verif.Round.floor_spec", "Verif.Round.math_mode", "Verif.Round.mround_spec", "Verif.Round.even_spec", "Verif.Round.odd_spec", "Verif.Round.even_wrong", "Verif.Round.gcd_spec", "Verif.Round.gcd_error", "Verif.Round.lcm_spec", "Verif.Round.lcm_fits", "Verif.Round.lcm_wrong", "Verif.Round.combin_spec", "Verif.Round.combin_error", "Verif.Round.combina_partial", "Verif.Round.combina_zero", "Verif.Round.fact_spec", "Verif.Round.factdouble_spec", "Verif.Round.permut_spec", "Verif.Round.multinomial_spec", "Verif.Round.multinomial_negative", "Verif.Round.multinomial_wrong"], "note": "Over rational numbers, without rounding of floats. Overflow breaks it: rounding to 309 digits or more gives no number (round_nan, round_inf), EVEN and ODD of 1E19 (even_wrong), LCM of two large numbers (lcm_wrong), MULTINOMIAL of two large numbers (multinomial_wrong), and COMBINA of 0 things does not end (combina_zero)."},
{"property": "C90", "status": "proved", "theorems": ["Verif.Spool.frame_fits", "Verif.Spool.frame_reads", "Verif.Spool.frame_cut", "Verif.Spool.trailing_refused", "Verif.Spool.cut_reported", "Verif.Spool.frame_injective", "Verif.Spool.spool_replays", "Verif.Spool.spool_limits", "Verif.Spool.spool_accepts", "Verif.Spool.replay_spec", "Verif.Spool.formulaAt_spec", "Verif.Spool.replay_total"], "note": "Failures of the file system are not modelled: a write that fails half way leaves bytes in the file. Whether bytes are UTF-8 and how a template is expanded are parameters. A shared formula without any anchor is dropped without an error, as the specification shows."},
{"property": "C91", "status": "proved", "theorems": ["Verif.Evid.partition_spec", "Verif.Evid.partition_ok", "Verif.Evid.clean_sound", "Verif.Evid.fragmented_sound", "Verif.Evid.finish_total", "Verif.Evid.conflict_marked", "Verif.Evid.exclusions_bounded", "Verif.Evid.no_holes_before"], "note": "Bytes are counted without saturation; the order of the source and the report are not modelled. That a family which could be taken is taken is not claimed."},
{"property": "C92", "status": "partial", "theorems": ["Verif.Struct.reads", "Verif.Struct.addressable", "Verif.Struct.writes_unique", "Verif.Struct.accepted_shape", "Verif.Struct.printed_reads", "Verif.Struct.table_printed_reads", "Verif.Struct.bare_printed_reads", "Verif.Struct.colon_misread", "Verif.Struct.hash_misread", "Verif.Struct.bracket_unreadable", "Verif.Struct.apostrophe_misread", "Verif.Struct.nested_misread", "Verif.Struct.bare_column", "Verif.Struct.comma_refused", "Verif.Struct.at_range_misread"], "note": "Reading is proved for all forms of the grammar. Reading back what is printed is proved for names that need no apostrophes and refuted for the others: names are printed without escapes, so T[[a:b]] is printed as the range T[a:b] and T[it''s] as the column its; a combination within a combination and the columns @[a]:[b] of the current row are misread too."},
{"property": "C93", "status": "partial", "theorems": ["Verif.Tables.eval_selects", "Verif.Tables.eval_unknown", "Verif.Tables.parts_of_table", "Verif.Tables.inspect_agrees", "Verif.Tables.this_row", "Verif.Tables.this_row_only", "Verif.Tables.this_row_inside", "Verif.Tables.inspect_this_row", "Verif.Tables.containing_order", "Verif.Tables.target_covers", "Verif.Tables.resolves", "Verif.Tables.names_differ", "Verif.Tables.define_found", "Verif.Tables.update_found", "Verif.Tables.totals_read_as_data", "Verif.Tables.inspect_misses", "Verif.Tables.inspect_headers_as_data", "Verif.Tables.inspect_union_lost", "Verif.Tables.combinations_unread", "Verif.Tables.target_differs", "Verif.Tables.insert_loses_row", "Verif.Tables.totals_row_differs", "Verif.Tables.named_row_unread", "Verif.Tables.holds_iff"], "note": "The cells a formula reads are proved for every specifier that does not depend on the formula's row, and the current row for references without a table's name. Refuted: the inspection compares names by ASCII only, reports headers and totals of a column as its data and loses unions; combinations by a table's name cannot be evaluated; tables stay where they are when rows are inserted; the totals of a table of one row at the top of a sheet are read as its data."},
{"property": "C94", "status": "partial", "theorems": ["Verif.Csv.last_write", "Verif.Csv.range_read", "Verif.Csv.array_printed", "Verif.Csv.never_written", "Verif.Csv.written_inside", "Verif.Csv.range_saved_iff", "Verif.Csv.range_saved", "Verif.Csv.open_cells", "Verif.Csv.open_bounds", "Verif.Csv.save_then_open", "Verif.Csv.open_then_save", "Verif.Csv.read_int_iff", "Verif.Csv.read_bool_iff", "Verif.Csv.text_comes_back_iff", "Verif.Csv.text_kept_when_off", "Verif.Csv.int_comes_back", "Verif.Csv.bool_comes_back", "Verif.Csv.fraction_comes_back", "Verif.Csv.integral_number", "Verif.Csv.large_becomes_text", "Verif.Csv.least_int_lost", "Verif.Csv.large_number_lost", "Verif.Csv.texts_change", "Verif.Csv.errors_become_texts", "Verif.Csv.failed_save_truncates", "Verif.Csv.clear_keeps_bounds", "Verif.Csv.row_zero_not_saved"], "note": "Files are lists of records: the csv crate is not modelled, nor is the trimming of fields. The printing and parsing of floating point numbers and dates are parameters. Proved: cells, bounds, saved rectangles, opening, the whole round trip for values that come back one by one, the exact texts and integers that do. Refuted: the least integer and numbers from 2^63 on come back as texts, texts that look like numbers or truth values change, errors come back as texts, and a save that fails destroys the file."},
{"property": "C95", "status": "partial", "theorems": ["Verif.Ledger.admitted_iff", "Verif.Ledger.shares", "Verif.Ledger.shares_exact", "Verif.Ledger.share_overflow", "Verif.Ledger.legacy_fills", "Verif.Ledger.legacy_reported", "Verif.Ledger.refused_unchanged", "Verif.Ledger.scratch_granted_iff", "Verif.Ledger.can_schedule_iff", "Verif.Ledger.retain_cases", "Verif.Ledger.charge_cases", "Verif.Ledger.mixed_cases", "Verif.Ledger.window_granted_iff", "Verif.Ledger.deadline_stays", "Verif.Ledger.limits_kept", "Verif.Ledger.observed_exceeds", "Verif.Ledger.peak_is_largest", "Verif.Ledger.retained_peak_is_largest", "Verif.Ledger.back_to_checkpoint", "Verif.Ledger.reserve_release", "Verif.Ledger.share_taken", "Verif.Ledger.sources_starved", "Verif.Ledger.exhaustion_reported"], "note": "The ledger is modelled completely but for the request's number and the clock, whose reading is an argument. Proved for reservations; memory that is only observed may exceed its limit. Refuted: a share of the scratch memory may be used up by another, and the share of the sources shrinks for envelopes beyond 2^64/35 bytes."},
{"property": "C96", "status": "partial", "theorems": ["Verif.Trans.rollback_restores", "Verif.Trans.savepoint_restores", "Verif.Trans.commit_iff", "Verif.Trans.refused_unchanged", "Verif.Trans.begin_iff", "Verif.Trans.begin_refused", "Verif.Trans.ids_increase", "Verif.Trans.never_panics", "Verif.Trans.savepoint_used_up", "Verif.Trans.equal_savepoint_lost", "Verif.Trans.second_name_ignored", "Verif.Trans.failed_rollback_ends", "Verif.Trans.clear_panics", "Verif.Trans.clear_forgets", "Verif.Trans.cell_reversible_iff", "Verif.Trans.editor_reversible_iff", "Verif.Trans.overwritten_value_lost"], "note": "Proved for edits that are reversible where they are made, for names not in use and for logs not cleared. Refuted: a savepoint can be used once only, and its rollback also loses earlier savepoints set at the same place; setting a name again has no effect; a failed rollback cannot be tried again; clearing the log in a transaction panics or makes the rollback do nothing; a value overwritten by another is not restored."},
{"property": "C97", "status": "partial", "theorems": ["Verif.RefFn.index_cells_partial", "Verif.RefFn.index_one", "Verif.RefFn.index_fraction", "Verif.RefFn.index_needs_numbers", "Verif.RefFn.index_array_agrees", "Verif.RefFn.offset_cells_partial", "Verif.RefFn.offset_compose", "Verif.RefFn.index_is_offset", "Verif.RefFn.size_of_read", "Verif.RefFn.address_iff", "Verif.RefFn.indirect_address_partial", "Verif.RefFn.indirect_cell_in_grid", "Verif.RefFn.index_far_wrong", "Verif.RefFn.index_array_far_wrong", "Verif.RefFn.index_unordered", "Verif.RefFn.index_column_cut", "Verif.RefFn.beyond_panics", "Verif.RefFn.offset_far_wrong", "Verif.RefFn.offset_overflow", "Verif.RefFn.rows_unordered_wrong", "Verif.RefFn.indirect_colon_wrong", "Verif.RefFn.indirect_range_beyond"], "note": "Proved for indices and offsets below 2^31 and rectangles in the grid. Refuted: a rectangle that ends beyond the grid panics instead of giving #REF!; larger numbers wrap around; ranges whose corners are not in order have no cells though ROWS counts 1; INDEX of a whole column stops at the last used row; ADDRESS does not quote a sheet name with a colon."},
{"property": "C98", "status": "partial", "theorems": ["Verif.Logic.trichotomy", "Verif.Logic.and_spec", "Verif.Logic.or_spec", "Verif.Logic.and_cases", "Verif.Logic.or_cases", "Verif.Logic.and_perm", "Verif.Logic.and_failing", "Verif.Logic.de_morgan", "Verif.Logic.xor_spec", "Verif.Logic.if_yes", "Verif.Logic.if_no", "Verif.Logic.if_failing", "Verif.Logic.ifs_first", "Verif.Logic.ifs_none", "Verif.Logic.ifs_error", "Verif.Logic.iferror_spec", "Verif.Logic.array_value", "Verif.Logic.iferror_scalar", "Verif.Logic.ifna_spec", "Verif.Logic.switch_first", "Verif.Logic.switch_default", "Verif.Logic.same_numbers", "Verif.Logic.same_texts", "Verif.Logic.same_kinds", "Verif.Logic.choose_spec", "Verif.Logic.choose_fraction", "Verif.Logic.concat_texts", "Verif.Logic.if_error_lost", "Verif.Logic.if_error_refuted", "Verif.Logic.iferror_refuted", "Verif.Logic.ifna_refuted", "Verif.Logic.and_blank_refuted", "Verif.Logic.xor_first_refuted", "Verif.Logic.concat_error_text", "Verif.Logic.concat_error_refuted"], "note": "Proved: what AND, OR, XOR give, De Morgan, which branch IF, IFS, SWITCH, CHOOSE take and which arguments they evaluate. Refuted: an error as the condition of IF shows as #VALUE!; IFERROR leaves an error in a range or array of one cell; IFNA leaves a #N/A that an argument fails with; & writes errors out as text; XOR shows the last error of a range; one blank cell makes AND FALSE."},
{"property": "C99", "status": "partial", "theorems": ["Verif.Delta.report_exact", "Verif.Delta.record_spec", "Verif.Delta.run_iff", "Verif.Delta.cells_exact", "Verif.Delta.pack_inj", "Verif.Delta.unlimited", "Verif.Delta.singles_apart", "Verif.Delta.singles_limit", "Verif.Delta.limit_refuted", "Verif.Delta.changes_reported", "Verif.Delta.changes_listed", "Verif.Delta.reported_touched", "Verif.Delta.flush_exact", "Verif.Delta.write_exact", "Verif.Delta.clear_exact", "Verif.Delta.unchanged_refuted", "Verif.Delta.array_again"], "note": "Proved: the merged records hold exactly the recorded cells, in order; the list is strictly ascending and exact; no change is missed over any run; buffers, cleared spills and plain results are reported exactly; the limit counts different cells when cells are recorded singly. Refuted: integers and errors with a message are reported though unchanged; an array that comes out as it was is reported whole; overlapping regions are counted repeatedly against the limit."}
]}

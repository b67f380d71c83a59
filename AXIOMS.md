# Axioms per theorem

Printed by `#print axioms` for every theorem named in MANIFEST.json; regenerated at each milestone. The only axioms that occur are Lean's own.

| property | theorem | axioms |
|---|---|---|
| C01 | `Verif.Coord.coord_tryNew_roundtrip` | propext Classical.choice Quot.sound |
| C01 | `Verif.Coord.coord_new_panics_iff` | propext Classical.choice Quot.sound |
| C01 | `Verif.Coord.coord_fromRaw_iff` | propext Classical.choice Quot.sound |
| C01 | `Verif.Coord.coord_no_alias` | propext Classical.choice Quot.sound |
| C01 | `Verif.Coord.coord_constructed_valid` | propext Classical.choice Quot.sound |
| C01 | `Verif.Coord.coord_fromExcel` | propext Classical.choice Quot.sound |
| C01 | `Verif.Coord.rel_roundtrip` | propext Classical.choice Quot.sound |
| C01 | `Verif.Coord.rel_fromRaw_iff` | propext Classical.choice Quot.sound |
| C01 | `Verif.Coord.rel_withAbs` | propext Classical.choice Quot.sound |
| C01 | `Verif.Coord.coord_relative_absolute` | propext Classical.choice Quot.sound |
| C01 | `Verif.Coord.rel_pos_bounded` | propext Classical.choice Quot.sound |
| C01 | `Verif.Coord.rel_offset` | propext Classical.choice Quot.sound |
| C01 | `Verif.Coord.rel_rebase` | propext Classical.choice Quot.sound |
| C02 | `Verif.A1.letters_parse_iff` | propext Classical.choice Quot.sound |
| C02 | `Verif.A1.letters_print_iff` | propext Classical.choice Quot.sound |
| C02 | `Verif.A1.letters_roundtrip` | propext Classical.choice Quot.sound |
| C02 | `Verif.A1.letters_roundtrip'` | propext Classical.choice Quot.sound |
| C02 | `Verif.A1.letters_injective` | propext Classical.choice Quot.sound |
| C02 | `Verif.A1.letters_1based_print` | propext Classical.choice Quot.sound |
| C02 | `Verif.A1.letters_1based_parse` | propext Classical.choice Quot.sound |
| C02 | `Verif.A1.letters_renderers_agree` | propext Classical.choice Quot.sound |
| C02 | `Verif.A1.letters_port_agrees` | propext Classical.choice Quot.sound |
| C03 | `Verif.A1.parse_a1_iff` | propext Classical.choice Quot.sound |
| C03 | `Verif.A1.a1_roundtrip` | propext Classical.choice Quot.sound |
| C03 | `Verif.A1.a1_in_grid` | propext Classical.choice Quot.sound |
| C04 | `Verif.PackedCell.packed_new` | propext Classical.choice Quot.sound |
| C04 | `Verif.PackedCell.packed_injective` | propext Classical.choice Quot.sound |
| C04 | `Verif.PackedCell.packed_decode` | propext Classical.choice Quot.sound |
| C04 | `Verif.PackedCell.packed_excel` | propext Classical.choice Quot.sound |
| C05 | `Verif.Coord.tryFromI64_partial` | propext Classical.choice Quot.sound |
| C05 | `Verif.Coord.tryFromI64_aliases` | propext Quot.sound |
| C06 | `Verif.SheetRef.sheet_prefix_roundtrip` | propext Classical.choice Quot.sound |
| C06 | `Verif.SheetRef.sheet_prefix_empty` | propext Classical.choice Quot.sound |
| C06 | `Verif.SheetRef.sheet_format_injective` | propext Classical.choice Quot.sound |
| C06 | `Verif.SheetRef.sheet_bare_iff` | propext Classical.choice Quot.sound |
| C06 | `Verif.SheetRef.sheet_prefix3d_roundtrip_partial` | propext Classical.choice Quot.sound |
| C06 | `Verif.SheetRef.sheet_prefix3d_control_fails` | propext Classical.choice Quot.sound |
| C07 | `Verif.Dates.dateToSerial_next` | propext Classical.choice Quot.sound |
| C07 | `Verif.Dates.dateToSerial_epoch` | none |
| C07 | `Verif.Dates.date_roundtrip` | propext Classical.choice Quot.sound |
| C07 | `Verif.Dates.dateToSerial_strictMono` | propext Classical.choice Quot.sound |
| C07 | `Verif.Dates.tryDate_isSome_iff` | propext Classical.choice Quot.sound |
| C07 | `Verif.Dates.serial_roundtrip` | propext Classical.choice Quot.sound |
| C07 | `Verif.Dates.displayParts_spec` | propext Classical.choice Quot.sound |
| C08 | `Verif.Dates.normalizedParts_carry` | propext Classical.choice Quot.sound |
| C08 | `Verif.Dates.normalized_spec` | propext Classical.choice Quot.sound |
| C08 | `Verif.Dates.nearestSecond_near` | propext Classical.choice Quot.sound |
| C08 | `Verif.Dates.tryDatetime_valid` | propext Classical.choice Quot.sound |
| C08 | `Verif.Dates.datetime_roundtrip` | propext Classical.choice Quot.sound |
| C08 | `Verif.Dates.datetime_roundtrip_exact` | propext Classical.choice Quot.sound |
| C09 | `Verif.Sched.buildLayers_spec` | propext Classical.choice Quot.sound |
| C09 | `Verif.Sched.buildLayers_circ_iff` | propext Classical.choice Quot.sound |
| C09 | `Verif.Sched.buildLayers_deterministic` | propext Classical.choice Quot.sound |
| C09 | `Verif.Sched.buildLayersVirtual_spec` | propext Classical.choice Quot.sound |
| C09 | `Verif.Sched.buildLayersVirtual_circ_iff` | propext Classical.choice Quot.sound |
| C09 | `Verif.Sched.buildLayersVirtual_deterministic` | propext Classical.choice Quot.sound |
| C09 | `Verif.Sched.createSchedule_valid` | propext Classical.choice Quot.sound |
| C09 | `Verif.Sched.createScheduleVirtual_valid` | propext Classical.choice Quot.sound |
| C09 | `Verif.Sched.createSchedule_deterministic` | propext Classical.choice Quot.sound |
| C09 | `Verif.Sched.createScheduleVirtual_deterministic` | propext Classical.choice Quot.sound |
| C10 | `Verif.Sched.components_partition` | propext Classical.choice Quot.sound |
| C10 | `Verif.Sched.same_component_iff` | propext Classical.choice Quot.sound |
| C10 | `Verif.Sched.components_ordered` | propext Classical.choice Quot.sound |
| C10 | `Verif.Sched.cyclic_iff` | propext Classical.choice Quot.sound |
| C10 | `Verif.Sched.cyclic_iff_base` | propext Classical.choice Quot.sound |
| C10 | `Verif.Sched.virtual_self_dependency_missed` | propext Quot.sound |
| C100 | `Verif.Pairs.least_squares` | propext Classical.choice Quot.sound |
| C100 | `Verif.Pairs.slope_fails` | propext Classical.choice Quot.sound |
| C100 | `Verif.Pairs.exact_line` | propext Classical.choice Quot.sound |
| C100 | `Verif.Pairs.correl_bounds` | propext Classical.choice Quot.sound |
| C100 | `Verif.Pairs.rsq_square` | propext Classical.choice Quot.sound |
| C100 | `Verif.Pairs.symmetric` | propext Classical.choice Quot.sound |
| C100 | `Verif.Pairs.rsq_one` | propext Classical.choice Quot.sound |
| C100 | `Verif.Pairs.correl_affine` | propext Classical.choice Quot.sound |
| C100 | `Verif.Pairs.covariance` | propext Classical.choice Quot.sound |
| C100 | `Verif.Pairs.steyx_spec` | propext Classical.choice Quot.sound |
| C100 | `Verif.Pairs.forecast_spec` | propext Classical.choice Quot.sound |
| C100 | `Verif.Pairs.line_spec` | propext Classical.choice Quot.sound |
| C100 | `Verif.Pairs.linest_r2` | propext Classical.choice Quot.sound |
| C100 | `Verif.Pairs.trend_spec` | propext Classical.choice Quot.sound |
| C100 | `Verif.Pairs.pair_errors` | propext |
| C100 | `Verif.Pairs.aligned` | propext Classical.choice Quot.sound |
| C100 | `Verif.Pairs.linest_se` | propext Classical.choice Quot.sound |
| C100 | `Verif.Pairs.linest_df` | propext Classical.choice Quot.sound |
| C100 | `Verif.Pairs.trend_row` | propext Classical.choice Quot.sound |
| C100 | `Verif.Pairs.defaultX_spec` | propext Classical.choice Quot.sound |
| C100 | `Verif.Pairs.sumx_spec` | propext Classical.choice Quot.sound |
| C100 | `Verif.Pairs.sumxmy2_zero` | propext Classical.choice Quot.sound |
| C100 | `Verif.Pairs.sumx_cells` | propext Classical.choice Quot.sound |
| C100 | `Verif.Pairs.pairs_refuted` | propext Classical.choice Quot.sound |
| C100 | `Verif.Pairs.length_refuted` | propext Quot.sound |
| C100 | `Verif.Pairs.forecast_error_lost` | propext Classical.choice Quot.sound |
| C100 | `Verif.Pairs.linest_r2_refuted` | propext Classical.choice Quot.sound |
| C100 | `Verif.Pairs.trend_blank` | propext Classical.choice Quot.sound |
| C100 | `Verif.Pairs.trend_linest_refuted` | propext Classical.choice Quot.sound |
| C100 | `Verif.Pairs.sumx_refuted` | propext Classical.choice Quot.sound |
| C101 | `Verif.Json.date_kept` | propext Classical.choice Quot.sound |
| C101 | `Verif.Json.time_kept` | propext Classical.choice Quot.sound |
| C101 | `Verif.Json.dateTime_kept` | propext Classical.choice Quot.sound |
| C101 | `Verif.Json.error_kept` | propext Classical.choice Quot.sound |
| C101 | `Verif.Json.saved_spec` | propext Classical.choice Quot.sound |
| C101 | `Verif.Json.round_trip` | propext Classical.choice Quot.sound |
| C101 | `Verif.Json.ops_spec` | propext Quot.sound |
| C101 | `Verif.Json.write_range` | none |
| C101 | `Verif.Json.range_read` | propext |
| C101 | `Verif.Json.duplicate_write` | propext Quot.sound |
| C101 | `Verif.Json.rename_spec` | propext |
| C101 | `Verif.Json.rename_same` | propext Quot.sound |
| C101 | `Verif.Json.create_delete` | propext |
| C101 | `Verif.Json.names_kept` | propext |
| C101 | `Verif.Json.names_migrated` | propext Quot.sound |
| C101 | `Verif.Json.dense_spec` | propext |
| C101 | `Verif.Json.sparse_spec` | propext Quot.sound |
| C101 | `Verif.Json.dims_hold` | propext Classical.choice Quot.sound |
| C101 | `Verif.Json.load_complete` | propext Classical.choice Quot.sound |
| C101 | `Verif.Json.load_sound` | propext Classical.choice Quot.sound |
| C101 | `Verif.Json.load_budget` | propext Classical.choice Quot.sound |
| C101 | `Verif.Json.load_accepted` | propext Quot.sound |
| C101 | `Verif.Json.fraction_refuted` | propext Classical.choice Quot.sound |
| C101 | `Verif.Json.value_refuted` | propext Classical.choice Quot.sound |
| C101 | `Verif.Json.duplicate_refuted` | none |
| C101 | `Verif.Json.rename_refuted` | propext |
| C101 | `Verif.Json.names_refuted` | propext |
| C101 | `Verif.Json.declared_refuted` | propext |
| C101 | `Verif.Json.paths_refuted` | none |
| C102 | `Verif.Dbase.names_iff` | propext Classical.choice Quot.sound |
| C102 | `Verif.Dbase.field_spec` | propext Classical.choice Quot.sound |
| C102 | `Verif.Dbase.chosen_iff` | propext Classical.choice Quot.sound |
| C102 | `Verif.Dbase.pick_spec` | propext Classical.choice Quot.sound |
| C102 | `Verif.Dbase.result_spec` | propext Classical.choice Quot.sound |
| C102 | `Verif.Dbase.error_spec` | propext Classical.choice Quot.sound |
| C102 | `Verif.Dbase.argument_error` | propext Classical.choice Quot.sound |
| C102 | `Verif.Dbase.variance_spec` | propext Classical.choice Quot.sound |
| C102 | `Verif.Dbase.deviation_spec` | propext Classical.choice Quot.sound |
| C102 | `Verif.Dbase.get_spec` | propext Classical.choice Quot.sound |
| C102 | `Verif.Dbase.counta_spec` | propext Quot.sound |
| C102 | `Verif.Dbase.rows_order` | propext Quot.sound |
| C102 | `Verif.Dbase.result_order` | propext Classical.choice Quot.sound |
| C102 | `Verif.Dbase.columns_order` | propext Classical.choice Quot.sound |
| C102 | `Verif.Dbase.inclusion_exclusion` | propext Classical.choice Quot.sound |
| C102 | `Verif.Dbase.header_all` | propext |
| C102 | `Verif.Dbase.average_count` | propext Classical.choice Quot.sound |
| C102 | `Verif.Dbase.blank_refuted` | propext Classical.choice Quot.sound |
| C102 | `Verif.Dbase.header_refuted` | propext Classical.choice Quot.sound |
| C102 | `Verif.Dbase.average_refuted` | propext Classical.choice Quot.sound |
| C102 | `Verif.Dbase.text_refuted` | propext Classical.choice Quot.sound |
| C103 | `Verif.Engin.toBits_iff` | propext Classical.choice Quot.sound |
| C103 | `Verif.Engin.refused` | propext Classical.choice Quot.sound |
| C103 | `Verif.Engin.refused_second` | propext Classical.choice Quot.sound |
| C103 | `Verif.Engin.bit_spec` | propext Classical.choice Quot.sound |
| C103 | `Verif.Engin.left_spec` | propext Classical.choice Quot.sound |
| C103 | `Verif.Engin.left_exact` | propext Classical.choice Quot.sound |
| C103 | `Verif.Engin.right_spec` | propext Classical.choice Quot.sound |
| C103 | `Verif.Engin.shift_negative` | propext Classical.choice Quot.sound |
| C103 | `Verif.Engin.shift_back` | propext Classical.choice Quot.sound |
| C103 | `Verif.Engin.left_refuted` | propext Classical.choice Quot.sound |
| C103 | `Verif.Engin.left_lost` | propext Classical.choice Quot.sound |
| C103 | `Verif.Engin.shift_panic` | propext Classical.choice Quot.sound |
| C103 | `Verif.Engin.shift_fraction` | propext Quot.sound |
| C103 | `Verif.Engin.unknown_unit` | propext Classical.choice Quot.sound |
| C103 | `Verif.Engin.convert_spec` | propext Classical.choice Quot.sound |
| C103 | `Verif.Engin.convert_na` | propext Classical.choice Quot.sound |
| C103 | `Verif.Engin.convert_errors` | propext Classical.choice Quot.sound |
| C103 | `Verif.Engin.convert_ok` | propext Classical.choice Quot.sound |
| C103 | `Verif.Engin.convert_compose` | propext Classical.choice Quot.sound |
| C103 | `Verif.Engin.convert_mono` | propext Classical.choice Quot.sound |
| C103 | `Verif.Engin.clean_spec` | propext Classical.choice Quot.sound |
| C103 | `Verif.Engin.parse_formatClean` | propext Classical.choice Quot.sound |
| C103 | `Verif.Engin.shows_format` | propext Classical.choice Quot.sound |
| C103 | `Verif.Engin.complex_spec` | propext Classical.choice Quot.sound |
| C103 | `Verif.Engin.rounded_exact` | propext Classical.choice Quot.sound |
| C103 | `Verif.Engin.complex_errors` | propext Classical.choice Quot.sound |
| C103 | `Verif.Engin.argument_spec` | propext Classical.choice Quot.sound |
| C103 | `Verif.Engin.sum_product_spec` | propext Classical.choice Quot.sound |
| C103 | `Verif.Engin.sum_product_error` | propext Classical.choice Quot.sound |
| C103 | `Verif.Engin.two_errors` | propext Classical.choice Quot.sound |
| C103 | `Verif.Engin.other_spec` | propext Classical.choice Quot.sound |
| C103 | `Verif.Engin.shows_unique` | propext Classical.choice Quot.sound |
| C103 | `Verif.Engin.order` | propext Classical.choice Quot.sound |
| C103 | `Verif.Engin.small_refuted` | propext Classical.choice Quot.sound |
| C103 | `Verif.Engin.div_refuted` | propext Classical.choice Quot.sound |
| C103 | `Verif.Engin.suffix_refuted` | propext Classical.choice Quot.sound |
| C103 | `Verif.Engin.unary_lawful` | propext Classical.choice Quot.sound |
| C104 | `Verif.Ops.Ranges.dep_covers_partial` | propext Classical.choice Quot.sound |
| C104 | `Verif.Ops.Ranges.dep_covers_written` | propext Classical.choice Quot.sound |
| C104 | `Verif.Ops.Ranges.exact_of` | propext Quot.sound |
| C104 | `Verif.Ops.Ranges.dep_misses` | propext Quot.sound |
| C104 | `Verif.Ops.Ranges.virtual_iff` | propext Quot.sound |
| C104 | `Verif.Ops.Ranges.ordered_after_partial` | propext Classical.choice Quot.sound |
| C104 | `Verif.Ops.Ranges.dep_within` | propext |
| C104 | `Verif.Ops.Ranges.graph_covers` | propext Quot.sound |
| C105 | `Verif.SelfRef.excluded_iff` | propext Classical.choice Quot.sound |
| C105 | `Verif.SelfRef.records_iff` | propext Classical.choice Quot.sound |
| C105 | `Verif.SelfRef.selected_two` | propext Classical.choice Quot.sound |
| C105 | `Verif.SelfRef.index_passed_over` | propext Classical.choice Quot.sound |
| C105 | `Verif.SelfRef.own_in_bounds` | propext Quot.sound |
| C105 | `Verif.SelfRef.excluded_not_read_partial` | propext Classical.choice Quot.sound |
| C105 | `Verif.SelfRef.static_is_value` | propext Classical.choice Quot.sound |
| C105 | `Verif.SelfRef.one_number_differs` | propext Classical.choice Quot.sound |
| C105 | `Verif.SelfRef.bulk_records_partial` | propext Classical.choice Quot.sound |
| C105 | `Verif.SelfRef.bulk_drops` | propext Classical.choice Quot.sound |
| C105 | `Verif.SelfRef.loaded_self_lost` | propext Classical.choice Quot.sound |
| C105 | `Verif.SelfRef.loaded_self_added` | propext Classical.choice Quot.sound |
| C106 | `Verif.SumIf.chunks_sum` | propext Classical.choice Quot.sound |
| C106 | `Verif.SumIf.sumIf_spec` | propext Classical.choice Quot.sound |
| C106 | `Verif.SumIf.averageIf_spec` | propext Classical.choice Quot.sound |
| C106 | `Verif.SumIf.countIf_spec` | propext Classical.choice Quot.sound |
| C106 | `Verif.SumIf.size_ignored` | propext Classical.choice Quot.sound |
| C106 | `Verif.SumIf.sumIf_not` | propext Classical.choice Quot.sound |
| C106 | `Verif.SumIf.sumIf_split` | propext Classical.choice Quot.sound |
| C106 | `Verif.SumIf.sumIf_reads` | propext Classical.choice Quot.sound |
| C106 | `Verif.SumIf.fresh_iff` | propext Classical.choice Quot.sound |
| C106 | `Verif.SumIf.fresh_partial` | propext Classical.choice Quot.sound |
| C106 | `Verif.SumIf.stale` | propext Classical.choice Quot.sound |
| C106 | `Verif.SumIf.sumIfs_spec_partial` | propext Classical.choice Quot.sound |
| C106 | `Verif.SumIf.sumIfs_order` | propext Classical.choice Quot.sound |
| C106 | `Verif.SumIf.sumIfs_one` | propext Classical.choice Quot.sound |
| C106 | `Verif.SumIf.sumIfs_single` | propext Classical.choice Quot.sound |
| C106 | `Verif.SumIf.sumIfs_narrow_wrong` | propext Classical.choice Quot.sound |
| C107 | `Verif.SumProd.dims_iff` | propext Classical.choice Quot.sound |
| C107 | `Verif.SumProd.unfit_iff` | propext Classical.choice Quot.sound |
| C107 | `Verif.SumProd.pick_at` | propext Quot.sound |
| C107 | `Verif.SumProd.sumProduct_spec` | propext Classical.choice Quot.sound |
| C107 | `Verif.SumProd.error_shows` | propext Classical.choice Quot.sound |
| C107 | `Verif.SumProd.order_free_partial` | propext Classical.choice Quot.sound |
| C107 | `Verif.SumProd.error_order` | propext Classical.choice Quot.sound |
| C107 | `Verif.SumProd.scale` | propext Classical.choice Quot.sound |
| C107 | `Verif.SumProd.logical_counts` | propext Classical.choice Quot.sound |
| C107 | `Verif.SumProd.blank_zero` | propext Classical.choice Quot.sound |
| C107 | `Verif.SumProd.columns_partial` | propext Classical.choice Quot.sound |
| C107 | `Verif.SumProd.columns_unfit` | propext Classical.choice Quot.sound |
| C107 | `Verif.SumProd.column_of_one` | propext Classical.choice Quot.sound |
| C108 | `Verif.Route.disjointOk_iff` | propext Classical.choice Quot.sound |
| C108 | `Verif.Route.build_has` | propext Classical.choice Quot.sound |
| C108 | `Verif.Route.route_spec` | propext Classical.choice Quot.sound |
| C108 | `Verif.Route.compact_iff` | propext Classical.choice Quot.sound |
| C108 | `Verif.Route.validate_iff` | propext Classical.choice Quot.sound |
| C108 | `Verif.Route.validate_compact` | propext Classical.choice Quot.sound |
| C108 | `Verif.Route.router_accepts` | propext Classical.choice Quot.sound |
| C108 | `Verif.Route.register_owns` | propext Classical.choice Quot.sound |
| C108 | `Verif.Route.register_keeps` | propext Classical.choice Quot.sound |
| C108 | `Verif.Route.register_refused` | propext Quot.sound |
| C108 | `Verif.Route.owned_cells` | propext Classical.choice Quot.sound |
| C108 | `Verif.Route.edited_cells` | propext Classical.choice Quot.sound |
| C108 | `Verif.Route.touches_iff` | propext Classical.choice Quot.sound |
| C108 | `Verif.Route.tryNew_spec` | propext Classical.choice Quot.sound |
| C108 | `Verif.Route.handOver_exact` | propext Classical.choice Quot.sound |
| C108 | `Verif.Route.handOver_valid` | propext Classical.choice Quot.sound |
| C108 | `Verif.Route.records_routed` | propext Classical.choice Quot.sound |
| C109 | `Verif.Days.european_count` | propext Quot.sound |
| C109 | `Verif.Days.european_value` | propext Quot.sound |
| C109 | `Verif.Days.days360_months` | propext Classical.choice Quot.sound |
| C109 | `Verif.Days.days360_mono` | propext Classical.choice Quot.sound |
| C109 | `Verif.Days.us_count_fails` | none |
| C109 | `Verif.Days.us_agree_iff` | propext Classical.choice Quot.sound |
| C109 | `Verif.Days.us_agree_fails` | propext Classical.choice Quot.sound |
| C109 | `Verif.Days.yearfrac_days` | propext Classical.choice Quot.sound |
| C109 | `Verif.Days.yearfrac_split` | propext Classical.choice Quot.sound |
| C109 | `Verif.Days.yearfrac_split_fails` | propext Classical.choice Quot.sound |
| C109 | `Verif.Days.yearfrac_swap` | propext Classical.choice Quot.sound |
| C109 | `Verif.Days.yearfrac_mono` | propext Classical.choice Quot.sound |
| C109 | `Verif.Days.yearfrac_years` | propext Classical.choice Quot.sound |
| C109 | `Verif.Days.yearfrac_year_fails` | propext Classical.choice Quot.sound |
| C109 | `Verif.Days.yearfrac_bond` | propext Classical.choice Quot.sound |
| C109 | `Verif.Days.iso_weeks` | propext Classical.choice Quot.sound |
| C109 | `Verif.Days.weeknum_counts` | propext Classical.choice Quot.sound |
| C109 | `Verif.Days.weeknum_iso_partial` | propext Classical.choice Quot.sound |
| C109 | `Verif.Days.weeknum_iso_fails` | none |
| C109 | `Verif.Days.accrual_issue` | propext |
| C109 | `Verif.Days.price_refuses` | propext Classical.choice Quot.sound |
| C109 | `Verif.Days.week_start_spec` | propext Classical.choice Quot.sound |
| C109 | `Verif.Days.iso_week_end` | propext Classical.choice Quot.sound |
| C109 | `Verif.Days.iso_week_end_fails` | propext Classical.choice Quot.sound |
| C109 | `Verif.Days.weeknum_edges` | propext Quot.sound |
| C11 | `Verif.Topo.ensure_mem` | propext Quot.sound |
| C11 | `Verif.Topo.ensure_before` | propext Quot.sound |
| C11 | `Verif.Topo.compact_id` | propext Classical.choice Quot.sound |
| C11 | `Verif.Topo.removeEdge_order` | propext Classical.choice Quot.sound |
| C11 | `Verif.Topo.rebuild_spec` | propext Classical.choice Quot.sound |
| C11 | `Verif.Topo.rebuild_topological` | propext Classical.choice Quot.sound |
| C11 | `Verif.Topo.refused_sound` | propext Classical.choice Quot.sound |
| C11 | `Verif.Topo.refused_iff_cycle_partial` | propext Classical.choice Quot.sound |
| C11 | `Verif.Topo.accepted_forward` | propext Classical.choice Quot.sound |
| C11 | `Verif.Topo.splice_eq` | propext Classical.choice Quot.sound |
| C11 | `Verif.Topo.splice_old_edges` | propext Classical.choice Quot.sound |
| C11 | `Verif.Topo.accepted_topological_partial` | propext Classical.choice Quot.sound |
| C11 | `Verif.Topo.layersFor_valid` | propext Classical.choice Quot.sound |
| C11 | `Verif.Topo.splice_breaks_order` | propext Classical.choice Quot.sound |
| C11 | `Verif.Topo.cycle_accepted` | propext Quot.sound |
| C11 | `Verif.Topo.budget_diverges` | propext Classical.choice Quot.sound |
| C11 | `Verif.Topo.chain_cycle` | propext Quot.sound |
| C11 | `Verif.Topo.layers_cap_zero_diverges` | propext Classical.choice Quot.sound |
| C110 | `Verif.Days.addMonths_spec` | propext Classical.choice Quot.sound |
| C110 | `Verif.Days.before_ends` | propext Classical.choice Quot.sound |
| C110 | `Verif.Days.coupons_partial` | propext Classical.choice Quot.sound |
| C110 | `Verif.Days.coupons_fail` | none |
| C110 | `Verif.Days.accrual_partial` | propext Classical.choice Quot.sound |
| C110 | `Verif.Days.accrual_fails` | propext Classical.choice Quot.sound |
| C110 | `Verif.Days.share_range` | propext Classical.choice Quot.sound |
| C110 | `Verif.Days.price_partial` | propext Classical.choice Quot.sound |
| C110 | `Verif.Days.price_par` | propext Classical.choice Quot.sound |
| C110 | `Verif.Days.price_anti` | propext Classical.choice Quot.sound |
| C110 | `Verif.Days.yield_price` | propext Classical.choice Quot.sound |
| C110 | `Verif.Days.bill_yield` | propext Classical.choice Quot.sound |
| C110 | `Verif.Days.bill_long` | propext Classical.choice Quot.sound |
| C110 | `Verif.Days.bill_leap_refused` | none |
| C111 | `Verif.Port.end_row_spec` | propext Classical.choice Quot.sound |
| C111 | `Verif.Port.write_table_cells` | propext Classical.choice Quot.sound |
| C111 | `Verif.Port.write_read_partial` | propext Classical.choice Quot.sound |
| C111 | `Verif.Port.batch_partial` | propext Classical.choice Quot.sound |
| C111 | `Verif.Port.base_restores` | propext Classical.choice Quot.sound |
| C111 | `Verif.Port.marker_fails` | propext |
| C111 | `Verif.Port.below_fails` | propext |
| C111 | `Verif.Port.gap_fails` | propext |
| C111 | `Verif.Port.marker_spaces_fails` | propext |
| C111 | `Verif.Port.header_cols_spec` | propext Classical.choice Quot.sound |
| C111 | `Verif.Port.range_cols_run` | none |
| C111 | `Verif.Port.write_read_range_partial` | propext Classical.choice Quot.sound |
| C111 | `Verif.Port.header_gap_fails` | propext |
| C111 | `Verif.Port.sheet_end_spec` | propext Classical.choice Quot.sound |
| C111 | `Verif.Port.marker_missing` | propext Quot.sound |
| C111 | `Verif.Port.table_cols_spec` | propext Quot.sound |
| C111 | `Verif.Port.fit_row_spec` | propext Quot.sound |
| C111 | `Verif.Port.range_cols_spec` | propext Classical.choice Quot.sound |
| C111 | `Verif.Port.range_width` | propext Quot.sound |
| C112 | `Verif.Contract.check_lit_spec` | propext Classical.choice Quot.sound |
| C112 | `Verif.Contract.validate_spec` | propext Classical.choice Quot.sound |
| C112 | `Verif.Contract.read_holds` | propext Classical.choice Quot.sound |
| C112 | `Verif.Contract.read_accepted` | propext Classical.choice Quot.sound |
| C112 | `Verif.Contract.record_default` | propext Classical.choice Quot.sound |
| C112 | `Verif.Contract.default_whole` | propext |
| C112 | `Verif.Contract.present_again` | propext Classical.choice Quot.sound |
| C112 | `Verif.Contract.read_again` | propext Classical.choice Quot.sound |
| C112 | `Verif.Contract.number_port` | propext Classical.choice Quot.sound |
| C112 | `Verif.Contract.whole_spec` | propext Classical.choice Quot.sound |
| C112 | `Verif.Contract.tiny_fails` | propext Classical.choice Quot.sound |
| C112 | `Verif.Contract.whole_enum_fails` | propext Classical.choice Quot.sound |
| C112 | `Verif.Contract.default_enum_fails` | propext Classical.choice Quot.sound |
| C112 | `Verif.Contract.required_table_fails` | propext Classical.choice Quot.sound |
| C112 | `Verif.Contract.type_spec` | propext Classical.choice Quot.sound |
| C112 | `Verif.Contract.bounds_need_numbers` | propext Classical.choice Quot.sound |
| C112 | `Verif.Contract.empty_spec` | propext Quot.sound |
| C112 | `Verif.Contract.partial_spec` | propext Classical.choice Quot.sound |
| C112 | `Verif.Contract.read_serials` | propext Classical.choice Quot.sound |
| C112 | `Verif.Contract.read_dates` | propext Classical.choice Quot.sound |
| C113 | `Verif.Chars.code_char` | propext Quot.sound |
| C113 | `Verif.Chars.char_code` | propext Classical.choice Quot.sound |
| C113 | `Verif.Chars.code_shared` | propext Classical.choice Quot.sound |
| C113 | `Verif.Chars.code_char_fails` | propext Quot.sound |
| C113 | `Verif.Chars.unichar_spec` | propext Classical.choice Quot.sound |
| C113 | `Verif.Chars.unicode_unichar` | propext Classical.choice Quot.sound |
| C113 | `Verif.Chars.unichar_unicode` | propext Classical.choice Quot.sound |
| C113 | `Verif.Chars.asc_spec` | propext Classical.choice Quot.sound |
| C113 | `Verif.Chars.asc_changes` | propext Classical.choice Quot.sound |
| C113 | `Verif.Chars.clean_spec` | propext Quot.sound |
| C113 | `Verif.Chars.rept_spec_partial` | propext Quot.sound |
| C113 | `Verif.Chars.rept_text` | propext Quot.sound |
| C113 | `Verif.Chars.rept_panics` | propext Classical.choice Quot.sound |
| C113 | `Verif.Chars.rept_panic_fails` | propext Classical.choice Quot.sound |
| C113 | `Verif.Chars.rept_bytes_fails` | none |
| C114 | `Verif.Rng.mix_left` | propext Quot.sound |
| C114 | `Verif.Rng.mix_right` | propext Classical.choice Quot.sound |
| C114 | `Verif.Rng.position_injective` | propext Classical.choice Quot.sound |
| C114 | `Verif.Rng.lanes_injective` | propext Classical.choice Quot.sound |
| C114 | `Verif.Rng.seed_injective` | propext Quot.sound |
| C114 | `Verif.Rng.seed_collides` | propext Classical.choice Quot.sound |
| C114 | `Verif.Rng.fnv_one_byte` | propext Quot.sound |
| C114 | `Verif.Rng.salts_differ` | propext Classical.choice Quot.sound |
| C114 | `Verif.Rng.site_seeds` | propext Quot.sound |
| C114 | `Verif.Rng.rand_range` | propext Classical.choice Quot.sound |
| C114 | `Verif.Rng.rand_twice_fails` | propext Classical.choice Quot.sound |
| C114 | `Verif.Rng.recalc_fails` | propext Classical.choice Quot.sound |
| C114 | `Verif.Rng.recalc_lanes` | propext Classical.choice Quot.sound |
| C114 | `Verif.Rng.between_cut` | propext Classical.choice Quot.sound |
| C114 | `Verif.Rng.between_spec` | propext Classical.choice Quot.sound |
| C114 | `Verif.Rng.dice_fails` | propext Classical.choice Quot.sound |
| C114 | `Verif.Rng.between_fraction_fails` | propext Classical.choice Quot.sound |
| C114 | `Verif.Rng.cut_spec` | propext Classical.choice Quot.sound |
| C114 | `Verif.Rng.between_full_fails` | propext Classical.choice Quot.sound |
| C114 | `Verif.Rng.array_spec` | propext Classical.choice Quot.sound |
| C114 | `Verif.Rng.array_some` | propext Classical.choice Quot.sound |
| C114 | `Verif.Rng.array_refused` | propext Classical.choice Quot.sound |
| C114 | `Verif.Rng.array_empty` | propext Classical.choice Quot.sound |
| C114 | `Verif.Rng.array_swapped_fails` | propext Classical.choice Quot.sound |
| C114 | `Verif.Rng.array_shape` | propext Classical.choice Quot.sound |
| C114 | `Verif.Rng.functions_differ` | propext Classical.choice Quot.sound |
| C114 | `Verif.Rng.between_other` | propext Classical.choice Quot.sound |
| C115 | `Verif.NumFmt.class_parts_partial` | propext Classical.choice Quot.sound |
| C115 | `Verif.NumFmt.quote_says_nothing` | propext Classical.choice Quot.sound |
| C115 | `Verif.NumFmt.quoted_semicolon_fails` | propext Classical.choice Quot.sound |
| C115 | `Verif.NumFmt.class_case` | propext Classical.choice Quot.sound |
| C115 | `Verif.NumFmt.parse_spaces` | propext Classical.choice Quot.sound |
| C115 | `Verif.NumFmt.numeric_spec` | propext Classical.choice Quot.sound |
| C115 | `Verif.NumFmt.parse_again` | propext Classical.choice Quot.sound |
| C115 | `Verif.NumFmt.decimals_spec` | propext Classical.choice Quot.sound |
| C115 | `Verif.NumFmt.temporal_spec` | propext Classical.choice Quot.sound |
| C115 | `Verif.NumFmt.builtin_temporal` | propext Classical.choice Quot.sound |
| C115 | `Verif.NumFmt.month_fails` | propext Classical.choice Quot.sound |
| C115 | `Verif.NumFmt.elapsed_fails` | propext Classical.choice Quot.sound |
| C115 | `Verif.NumFmt.currency_fails` | propext Classical.choice Quot.sound |
| C115 | `Verif.NumFmt.general_fails` | propext Classical.choice Quot.sound |
| C116 | `Verif.Options.once_restores_partial` | propext Quot.sound |
| C116 | `Verif.Options.once_runs` | propext Quot.sound |
| C116 | `Verif.Options.apply_sees` | propext Quot.sound |
| C116 | `Verif.Options.apply_refuses` | propext Quot.sound |
| C116 | `Verif.Options.clock_fails` | propext |
| C116 | `Verif.Options.frozen_rand` | propext Classical.choice Quot.sound |
| C117 | `Verif.Lookup.lookup_edge` | propext Classical.choice Quot.sound |
| C117 | `Verif.Lookup.lookup_numbers` | propext Classical.choice Quot.sound |
| C117 | `Verif.Lookup.lookup_texts` | propext Classical.choice Quot.sound |
| C117 | `Verif.Lookup.lookup_vector` | propext Classical.choice Quot.sound |
| C117 | `Verif.Lookup.lookup_array` | propext Classical.choice Quot.sound |
| C117 | `Verif.Lookup.lookup_errors_fail` | propext Classical.choice Quot.sound |
| C117 | `Verif.Lookup.lookup_blanks_fail` | propext Classical.choice Quot.sound |
| C117 | `Verif.Lookup.lookup_short_fails` | propext Classical.choice Quot.sound |
| C118 | `Verif.TextFn.group_few` | propext |
| C118 | `Verif.TextFn.group_more` | propext Classical.choice Quot.sound |
| C118 | `Verif.TextFn.group_digits` | propext Quot.sound |
| C118 | `Verif.TextFn.thousands_spec` | propext Classical.choice Quot.sound |
| C118 | `Verif.TextFn.plain_spec` | propext Classical.choice Quot.sound |
| C118 | `Verif.TextFn.percent_fails` | propext Classical.choice Quot.sound |
| C118 | `Verif.TextFn.places_fail` | propext Classical.choice Quot.sound |
| C118 | `Verif.TextFn.negative_zero_fails` | propext Classical.choice Quot.sound |
| C118 | `Verif.TextFn.letters_fail` | propext Classical.choice Quot.sound |
| C118 | `Verif.TextFn.clock_near` | propext Classical.choice Quot.sound |
| C118 | `Verif.TextFn.pad_value` | propext Quot.sound |
| C118 | `Verif.TextFn.date_spec` | propext Classical.choice Quot.sound |
| C118 | `Verif.TextFn.text_date` | propext Classical.choice Quot.sound |
| C118 | `Verif.TextFn.date_letters_fail` | propext Classical.choice Quot.sound |
| C119 | `Verif.TextFn.number_value_spec` | propext Classical.choice Quot.sound |
| C119 | `Verif.TextFn.number_value_spaces` | propext Classical.choice Quot.sound |
| C119 | `Verif.TextFn.number_value_refuses` | propext Classical.choice Quot.sound |
| C119 | `Verif.TextFn.group_after_fails` | propext Classical.choice Quot.sound |
| C119 | `Verif.TextFn.point_fails` | propext Classical.choice Quot.sound |
| C12 | `Verif.Edges.out_edges_exact` | propext Classical.choice Quot.sound |
| C12 | `Verif.Edges.in_edges_exact` | propext Classical.choice Quot.sound |
| C12 | `Verif.Edges.refs_exact` | propext Classical.choice Quot.sound |
| C12 | `Verif.Edges.rebuild_transparent` | propext Classical.choice Quot.sound |
| C12 | `Verif.Edges.edges_nodup` | propext Classical.choice Quot.sound |
| C12 | `Verif.Edges.visit_exact` | propext Classical.choice Quot.sound |
| C12 | `Verif.Edges.num_edges_exact` | propext Classical.choice Quot.sound |
| C12 | `Verif.Edges.unregistered_source_lost` | propext Quot.sound |
| C12 | `Verif.Edges.bulk_load_forgets_vertices` | propext Quot.sound |
| C120 | `Verif.TextFn.date_value_slashes` | propext Quot.sound |
| C120 | `Verif.TextFn.date_value_spaces` | propext Classical.choice Quot.sound |
| C120 | `Verif.TextFn.slash_iff` | propext Quot.sound |
| C120 | `Verif.TextFn.year_window` | propext Quot.sound |
| C120 | `Verif.TextFn.year_digits` | propext |
| C120 | `Verif.TextFn.text_back` | propext Classical.choice Quot.sound |
| C120 | `Verif.TextFn.day_first_spec` | propext Quot.sound |
| C120 | `Verif.TextFn.order_fails` | propext Quot.sound |
| C13 | `Verif.Interval.query_sound` | propext Classical.choice Quot.sound |
| C13 | `Verif.Interval.query_complete` | propext Classical.choice Quot.sound |
| C13 | `Verif.Interval.query_nodup` | propext Classical.choice Quot.sound |
| C13 | `Verif.Interval.len_exact` | propext Classical.choice Quot.sound |
| C13 | `Verif.Interval.point_exact` | propext Classical.choice Quot.sound |
| C13 | `Verif.Interval.visits_exact` | propext Classical.choice Quot.sound |
| C13 | `Verif.Interval.remove_reports` | propext Classical.choice Quot.sound |
| C13 | `Verif.Interval.pointCount_eq` | propext Quot.sound |
| C14 | `Verif.Stripes.collect_exact_partial` | propext Classical.choice Quot.sound |
| C14 | `Verif.Stripes.removed_not_reported` | propext Quot.sound |
| C14 | `Verif.Stripes.no_stale_stripes` | propext Classical.choice Quot.sound |
| C14 | `Verif.Stripes.visit_exact_partial` | propext Classical.choice Quot.sound |
| C14 | `Verif.Stripes.bulk_multi_column_missed` | propext Quot.sound |
| C14 | `Verif.Stripes.bulk_multi_column_spurious` | propext Quot.sound |
| C14 | `Verif.Stripes.mixed_open_missed` | propext Quot.sound |
| C15 | `Verif.Dirty.mark_terminates` | propext Classical.choice Quot.sound |
| C15 | `Verif.Dirty.mark_exact` | propext Quot.sound |
| C15 | `Verif.Dirty.mark_many_eq_each` | propext Classical.choice Quot.sound |
| C15 | `Verif.Dirty.mark_schedules` | propext Quot.sound |
| C15 | `Verif.Dirty.clear_schedules` | propext Quot.sound |
| C15 | `Verif.Dirty.markValueCells_covers` | propext Classical.choice Quot.sound |
| C16 | `Verif.Dirty.deferred_loses_nothing` | propext Classical.choice Quot.sound |
| C17 | `Verif.DirtyLease.no_event_lost` | propext Classical.choice Quot.sound |
| C17 | `Verif.DirtyLease.old_leases_cannot_remove` | propext Classical.choice Quot.sound |
| C17 | `Verif.DirtyLease.ack_removes_exactly` | propext Classical.choice Quot.sound |
| C17 | `Verif.DirtyLease.ack_full` | propext Classical.choice Quot.sound |
| C17 | `Verif.DirtyLease.refused_unchanged` | propext Quot.sound |
| C17 | `Verif.DirtyLease.only_ack_removes` | propext Classical.choice Quot.sound |
| C17 | `Verif.DirtyLease.release_keeps` | propext |
| C17 | `Verif.DirtyLease.lease_delivers_all` | propext |
| C17 | `Verif.DirtyLease.stale_refused` | propext Classical.choice Quot.sound |
| C17 | `Verif.DirtyLease.accepted_is_current` | propext Classical.choice Quot.sound |
| C18 | `Verif.Recalc.recalculation_correct` | propext Classical.choice Quot.sound |
| C18 | `Verif.Recalc.histories_agree` | propext Classical.choice Quot.sound |
| C18 | `Verif.Recalc.evaluateAll_recalculates` | propext Classical.choice Quot.sound |
| C18 | `Verif.Recalc.recalculated_unique` | propext Classical.choice Quot.sound |
| C18 | `Verif.Recalc.run_correct` | propext Quot.sound |
| C18 | `Verif.Recalc.pass_recalculates` | propext Classical.choice Quot.sound |
| C18 | `Verif.Recalc.setValue_inv` | propext Classical.choice Quot.sound |
| C18 | `Verif.Recalc.setFormula_inv` | propext Classical.choice Quot.sound |
| C19 | `Verif.Undo.log_aligned` | propext Classical.choice Quot.sound |
| C19 | `Verif.Undo.seqs_increase` | propext Classical.choice Quot.sound |
| C19 | `Verif.Undo.log_bounded` | propext Classical.choice Quot.sound |
| C19 | `Verif.Undo.record_keeps_recent` | propext Classical.choice Quot.sound |
| C19 | `Verif.Undo.setCap_keeps_recent` | propext Classical.choice Quot.sound |
| C19 | `Verif.Undo.groups_contiguous` | propext Classical.choice Quot.sound |
| C19 | `Verif.Undo.group_of_compound` | propext Classical.choice Quot.sound |
| C19 | `Verif.Undo.stop_panics_iff` | propext Quot.sound |
| C19 | `Verif.Undo.stop_panics` | none |
| C20 | `Verif.Undo.undo_restores_partial` | propext Classical.choice Quot.sound |
| C20 | `Verif.Undo.undo_all_partial` | propext Classical.choice Quot.sound |
| C20 | `Verif.Undo.redo_undo` | propext Classical.choice Quot.sound |
| C20 | `Verif.Undo.hist_undo` | propext Classical.choice Quot.sound |
| C20 | `Verif.Undo.undo_after_group_fails` | propext Classical.choice Quot.sound |
| C20 | `Verif.Undo.redo_blocks_undo` | propext Classical.choice Quot.sound |
| C20 | `Verif.Undo.formula_over_value_lost` | propext |
| C20 | `Verif.Undo.stale_redo` | propext |
| C20 | `Verif.Undo.cap_splits_action` | propext |
| C21 | `Verif.Adjust.insertRows_cell` | propext Quot.sound |
| C21 | `Verif.Adjust.insertCols_cell` | propext Quot.sound |
| C21 | `Verif.Adjust.insertRows_range` | propext Classical.choice Quot.sound |
| C21 | `Verif.Adjust.insertCols_range` | propext Classical.choice Quot.sound |
| C21 | `Verif.Adjust.other_sheet_unchanged` | propext |
| C21 | `Verif.Adjust.adjustAst_spec` | propext Quot.sound |
| C21 | `Verif.Adjust.insert_panics` | propext Quot.sound |
| C21 | `Verif.Adjust.insert_leaves_grid` | propext |
| C21 | `Verif.Adjust.reversed_range_stays` | propext Quot.sound |
| C22 | `Verif.Adjust.deleteRows_cell` | propext Classical.choice Quot.sound |
| C22 | `Verif.Adjust.deleteCols_cell` | propext Classical.choice Quot.sound |
| C22 | `Verif.Adjust.deleteRows_range_partial` | propext Classical.choice Quot.sound |
| C22 | `Verif.Adjust.deleteCols_range_partial` | propext Classical.choice Quot.sound |
| C22 | `Verif.Adjust.other_sheet_unchanged` | propext |
| C22 | `Verif.Adjust.adjustAst_spec` | propext Quot.sound |
| C22 | `Verif.Adjust.endOnly_delete_fails` | propext Quot.sound |
| C22 | `Verif.Adjust.reversed_range_stays` | propext Quot.sound |
| C23 | `Verif.Adjust.insert_delete_rows` | propext Classical.choice Quot.sound |
| C23 | `Verif.Adjust.insert_delete_cols` | propext Classical.choice Quot.sound |
| C23 | `Verif.Adjust.insert_delete_rows_ref` | propext Classical.choice Quot.sound |
| C23 | `Verif.Adjust.insert_delete_cols_ref` | propext Classical.choice Quot.sound |
| C23 | `Verif.Adjust.roundtrip_ast` | propext Quot.sound |
| C24 | `Verif.Pretty.roundtrip_partial` | propext Classical.choice Quot.sound |
| C24 | `Verif.Pretty.repeat_dropped` | propext |
| C24 | `Verif.Pretty.postfix_captured` | propext |
| C24 | `Verif.Pretty.hash_over_percent` | propext |
| C24 | `Verif.Pretty.union_argument_split` | propext |
| C24 | `Verif.Pretty.union_in_call_refused` | propext |
| C24 | `Verif.Pretty.sole_omitted_lost` | propext |
| C24 | `Verif.Pretty.roundtrip_text_partial` | propext Classical.choice Quot.sound |
| C24 | `Verif.Pretty.upper_same` | propext Quot.sound |
| C24 | `Verif.Pretty.colon_fused` | propext Classical.choice Quot.sound |
| C24 | `Verif.Pretty.names_intersection_refused` | propext Classical.choice Quot.sound |
| C24 | `Verif.Pretty.external_range_split` | propext Classical.choice Quot.sound |
| C25 | `Verif.Token.tokenize_total` | propext Classical.choice Quot.sound |
| C25 | `Verif.Token.tokens_cover_partial` | propext Classical.choice Quot.sound |
| C25 | `Verif.Token.render_partial` | propext Classical.choice Quot.sound |
| C25 | `Verif.Token.literal_token` | propext Classical.choice Quot.sound |
| C25 | `Verif.Token.sheet_prefix_lost` | propext Classical.choice Quot.sound |
| C25 | `Verif.Token.colon_after_bang` | propext Classical.choice Quot.sound |
| C26 | `Verif.Token.brackets_nested` | propext Classical.choice Quot.sound |
| C27 | `Verif.Spill.owner_iff_region` | propext Quot.sound |
| C27 | `Verif.Spill.region_exclusive` | propext Quot.sound |
| C27 | `Verif.Spill.anchors_exact` | propext Classical.choice Quot.sound |
| C27 | `Verif.Spill.plan_refused_iff` | propext Classical.choice Quot.sound |
| C27 | `Verif.Spill.commit_region` | none |
| C27 | `Verif.Spill.clear_region` | Quot.sound |
| C27 | `Verif.Spill.commit_shows` | propext Quot.sound |
| C27 | `Verif.Spill.commit_cells` | propext Classical.choice Quot.sound |
| C27 | `Verif.Spill.child_kept` | propext |
| C27 | `Verif.Spill.engine_owner_iff_region` | propext Classical.choice Quot.sound |
| C27 | `Verif.Spill.unplanned_commit_shares_a_cell` | propext |
| C28 | `Verif.Spill.fault_restores_values` | propext Quot.sound |
| C28 | `Verif.Spill.fault_cache_off` | propext |
| C28 | `Verif.Spill.fault_keeps_formulas_partial` | propext Quot.sound |
| C28 | `Verif.Spill.fault_loses_formula` | propext Quot.sound |
| C28 | `Verif.Spill.fault_leaves_vertices` | propext Quot.sound |
| C29 | `Verif.SheetRef.ref_roundtrip` | propext Classical.choice Quot.sound |
| C29 | `Verif.SheetRef.ref_roundtrip_bracket_fails` | propext Classical.choice Quot.sound |
| C30 | `Verif.Dates.stored_datetime_partial` | propext Classical.choice Quot.sound |
| C30 | `Verif.Dates.stored_datetime_fails` | none |
| C31 | `Verif.Dates.date_fn_carries` | propext Classical.choice Quot.sound |
| C31 | `Verif.Dates.date_fn_fields` | propext Classical.choice Quot.sound |
| C31 | `Verif.Dates.date_fn_unchecked` | none |
| C31 | `Verif.Dates.date_fn_wraps` | none |
| C31 | `Verif.Dates.time_fn_partial` | propext Quot.sound |
| C31 | `Verif.Dates.time_fn_wraps` | none |
| C32 | `Verif.Dates.edate_spec` | propext Quot.sound |
| C32 | `Verif.Dates.eomonth_spec` | propext Quot.sound |
| C32 | `Verif.Dates.edate_add` | propext Classical.choice Quot.sound |
| C32 | `Verif.Dates.edate_unchecked` | none |
| C33 | `Verif.Dates.weekday_calendar` | propext Classical.choice Quot.sound |
| C33 | `Verif.Dates.weekday_cycle` | propext Classical.choice Quot.sound |
| C33 | `Verif.Dates.weekday_types` | propext Classical.choice Quot.sound |
| C34 | `Verif.Dates.networkdays_spec` | propext Classical.choice Quot.sound |
| C34 | `Verif.Dates.networkdays_split` | propext Classical.choice Quot.sound |
| C34 | `Verif.Dates.workday_terminates` | propext Classical.choice Quot.sound |
| C34 | `Verif.Dates.workday_inverts_networkdays` | propext Classical.choice Quot.sound |
| C34 | `Verif.Dates.workday_backward` | propext Classical.choice Quot.sound |
| C34 | `Verif.Dates.workday_min_wraps` | propext |
| C35 | `Verif.Dates.datedif_years` | propext Classical.choice Quot.sound |
| C35 | `Verif.Dates.datedif_months` | propext Classical.choice Quot.sound |
| C35 | `Verif.Dates.datedif_ym` | propext Classical.choice Quot.sound |
| C35 | `Verif.Dates.datedif_md_partial` | propext Classical.choice Quot.sound |
| C35 | `Verif.Dates.datedif_md_fails` | none |
| C36 | `Verif.SheetIndex.row_range_exact` | propext Classical.choice Quot.sound |
| C36 | `Verif.SheetIndex.col_range_exact` | propext Classical.choice Quot.sound |
| C36 | `Verif.SheetIndex.rect_exact` | propext Classical.choice Quot.sound |
| C36 | `Verif.SheetIndex.len_exact` | propext Classical.choice Quot.sound |
| C36 | `Verif.SheetIndex.stale_removal_leaves_ghost` | propext |
| C37 | `Verif.Adjust.copy_cell_partial` | propext Quot.sound |
| C37 | `Verif.Adjust.copy_range_partial` | propext Quot.sound |
| C37 | `Verif.Adjust.copy_formula_partial` | propext |
| C37 | `Verif.Adjust.copy_clamps` | propext |
| C37 | `Verif.Adjust.copy_skips_calls` | propext |
| C37 | `Verif.Adjust.copy_skips_arrays` | propext |
| C38 | `Verif.Adjust.move_cell_partial` | propext Classical.choice Quot.sound |
| C38 | `Verif.Adjust.move_range_partial` | propext Classical.choice Quot.sound |
| C38 | `Verif.Adjust.move_other_sheet` | propext |
| C38 | `Verif.Adjust.move_formula_partial` | propext Quot.sound |
| C38 | `Verif.Adjust.move_skips_calls` | propext |
| C38 | `Verif.Adjust.move_case_sensitive` | propext |
| C38 | `Verif.Adjust.move_overlap_lost` | propext |
| C38 | `Verif.Adjust.move_changes_meaning` | propext |
| C39 | `Verif.Adjust.name_insertRows` | propext Classical.choice Quot.sound |
| C39 | `Verif.Adjust.name_deleteRows_cell` | propext Classical.choice Quot.sound |
| C39 | `Verif.Adjust.name_deleteRows_range_partial` | propext Classical.choice Quot.sound |
| C39 | `Verif.Adjust.name_shrinks_fails` | propext |
| C39 | `Verif.Adjust.name_insertCols` | propext Classical.choice Quot.sound |
| C39 | `Verif.Adjust.name_deleteCols_cell` | propext Classical.choice Quot.sound |
| C39 | `Verif.Adjust.name_deleteCols_range_partial` | propext Classical.choice Quot.sound |
| C39 | `Verif.Adjust.name_loses_edge_column` | propext |
| C39 | `Verif.Adjust.name_lost_iff` | propext Classical.choice Quot.sound |
| C39 | `Verif.Adjust.name_elsewhere` | propext Quot.sound |
| C39 | `Verif.Adjust.name_constant` | propext |
| C40 | `Verif.Adjust.insertRows_cells_partial` | propext Classical.choice Quot.sound |
| C40 | `Verif.Adjust.insertCols_cells_partial` | propext Classical.choice Quot.sound |
| C40 | `Verif.Adjust.deleteRows_cells_partial` | propext Classical.choice Quot.sound |
| C40 | `Verif.Adjust.deleteCols_cells_partial` | propext Classical.choice Quot.sound |
| C40 | `Verif.Adjust.first_edit_keeps_cells` | propext Classical.choice Quot.sound |
| C40 | `Verif.Adjust.tombstone_hijacks_cell` | none |
| C41 | `Verif.Token.tokenize_total` | propext Classical.choice Quot.sound |
| C41 | `Verif.Token.best_effort_ordered` | propext Classical.choice Quot.sound |
| C41 | `Verif.Token.best_effort_clean_iff` | propext Classical.choice Quot.sound |
| C41 | `Verif.Token.best_effort_loses` | propext Classical.choice Quot.sound |
| C42 | `Verif.Pretty.parse_total` | propext Classical.choice Quot.sound |
| C43 | `Verif.Spill.locks_disjoint` | propext Classical.choice Quot.sound |
| C43 | `Verif.Spill.reserve_refused_iff` | propext Classical.choice Quot.sound |
| C43 | `Verif.Spill.reserve_granted` | propext Classical.choice Quot.sound |
| C43 | `Verif.Spill.release_exact` | propext Classical.choice Quot.sound |
| C43 | `Verif.Spill.engine_locks_disjoint` | propext Classical.choice Quot.sound |
| C44 | `Verif.Spill.scalar_result` | propext Quot.sound |
| C44 | `Verif.Spill.obstructed_result` | propext Classical.choice Quot.sound |
| C44 | `Verif.Spill.array_result` | propext Classical.choice Quot.sound |
| C44 | `Verif.Spill.refused_for_ever` | propext Classical.choice Quot.sound |
| C44 | `Verif.Spill.spill_never_recovers` | propext |
| C44 | `Verif.Spill.leftover_blocks_others` | propext |
| C44 | `Verif.Spill.parallel_layer_aborts` | propext |
| C44 | `Verif.Spill.typed_over_child_aborts` | propext |
| C44 | `Verif.Spill.typed_formula_deleted` | propext |
| C44 | `Verif.Spill.insert_row_deletes_formula` | propext |
| C44 | `Verif.Spill.typed_over_anchor_keeps_children` | propext |
| C45 | `Verif.Pretty.chain_grouped` | propext Classical.choice Quot.sound |
| C45 | `Verif.Pretty.grouped_unique` | propext Quot.sound |
| C45 | `Verif.Pretty.sign_groups` | propext |
| C45 | `Verif.Pretty.inner_sign_groups` | propext |
| C45 | `Verif.Pretty.postfix_groups` | propext |
| C46 | `Verif.Recalc.targets_correct_partial` | propext Classical.choice Quot.sound |
| C46 | `Verif.Recalc.evaluateTargets_agrees` | propext Classical.choice Quot.sound |
| C46 | `Verif.Recalc.name_cycle_wrong` | propext Quot.sound |
| C47 | `Verif.Recalc.plan_correct_partial` | propext Classical.choice Quot.sound |
| C47 | `Verif.Recalc.evaluatePlan_recalculates` | propext Classical.choice Quot.sound |
| C47 | `Verif.Recalc.plan_clean_wrong` | propext Quot.sound |
| C47 | `Verif.Recalc.plan_name_wrong` | propext Quot.sound |
| C48 | `Verif.Recalc.evaluateAll_dynamic_partial` | propext Classical.choice Quot.sound |
| C48 | `Verif.Recalc.replan_wrong` | propext Quot.sound |
| C48 | `Verif.Recalc.self_indirect_wrong` | propext Quot.sound |
| C49 | `Verif.Recalc.loggedFormula_inv_partial` | propext Classical.choice Quot.sound |
| C49 | `Verif.Recalc.logged_edit_wrong` | propext Quot.sound |
| C49 | `Verif.Recalc.marked_edit_right` | propext Quot.sound |
| C49 | `Verif.Recalc.volatile_name_wrong` | propext Quot.sound |
| C50 | `Verif.Lookup.lookup_wildcard_correct` | propext Classical.choice Quot.sound |
| C50 | `Verif.Lookup.run_total` | propext Classical.choice Quot.sound |
| C50 | `Verif.Lookup.textLike_correct_partial` | propext Classical.choice Quot.sound |
| C50 | `Verif.Lookup.toLike_correct_partial` | propext |
| C50 | `Verif.Lookup.readLike_plain_partial` | propext Quot.sound |
| C50 | `Verif.Lookup.textLike_quest_wrong` | propext Classical.choice Quot.sound |
| C50 | `Verif.Lookup.textLike_escape_wrong` | propext Classical.choice Quot.sound |
| C50 | `Verif.Lookup.readLike_percent_wrong` | propext Classical.choice Quot.sound |
| C50 | `Verif.Lookup.toLike_underscore_wrong` | propext Classical.choice Quot.sound |
| C50 | `Verif.Lookup.toLike_escape_wrong` | propext Classical.choice Quot.sound |
| C51 | `Verif.Lookup.find_correct_partial` | propext Quot.sound |
| C51 | `Verif.Lookup.search_correct_partial` | propext Quot.sound |
| C51 | `Verif.Lookup.search_escape_wrong` | propext Classical.choice Quot.sound |
| C51 | `Verif.Lookup.search_case_wrong` | propext |
| C51 | `Verif.Lookup.search_empty_ignores_start` | propext Quot.sound |
| C51 | `Verif.Lookup.find_empty_ignores_start` | propext Quot.sound |
| C51 | `Verif.Lookup.find_empty_wrong` | propext Classical.choice Quot.sound |
| C52 | `Verif.Lookup.countIf_correct_partial` | propext Classical.choice Quot.sound |
| C52 | `Verif.Lookup.countIf_storage_partial` | propext Classical.choice Quot.sound |
| C52 | `Verif.Lookup.countIfs_correct_partial` | propext Classical.choice Quot.sound |
| C52 | `Verif.Lookup.countIf_nonblank_wrong` | propext Classical.choice Quot.sound |
| C52 | `Verif.Lookup.countIf_blank_wrong` | propext Classical.choice Quot.sound |
| C52 | `Verif.Lookup.countIf_number_text_wrong` | propext Classical.choice Quot.sound |
| C52 | `Verif.Lookup.countIf_storage_wrong` | propext Classical.choice Quot.sound |
| C52 | `Verif.Lookup.countIfs_range_wrong` | propext Classical.choice Quot.sound |
| C52 | `Verif.Lookup.countIf_beyond_wrong` | propext Classical.choice Quot.sound |
| C52 | `Verif.Lookup.countIfs_order_wrong` | propext Classical.choice Quot.sound |
| C52 | `Verif.Lookup.sumIfs_tail_wrong` | propext Classical.choice Quot.sound |
| C52 | `Verif.Lookup.sumIfs_correct_partial` | propext Classical.choice Quot.sound |
| C53 | `Verif.Lookup.criterion_number` | propext Classical.choice Quot.sound |
| C53 | `Verif.Lookup.parseCriteria_compare` | propext Classical.choice Quot.sound |
| C53 | `Verif.Lookup.parseCriteria_text_partial` | propext Classical.choice Quot.sound |
| C53 | `Verif.Lookup.criterion_quoted_partial` | propext Classical.choice Quot.sound |
| C53 | `Verif.Lookup.parseCriteria_wrong` | propext Classical.choice Quot.sound |
| C54 | `Verif.Lookup.match_number_partial` | propext Classical.choice Quot.sound |
| C54 | `Verif.Lookup.match_text_partial` | propext Classical.choice Quot.sound |
| C54 | `Verif.Lookup.lookup_number_partial` | propext Classical.choice Quot.sound |
| C54 | `Verif.Lookup.lookup_text_partial` | propext Classical.choice Quot.sound |
| C54 | `Verif.Lookup.match_tolerance_wrong` | propext Classical.choice Quot.sound |
| C54 | `Verif.Lookup.match_numeric_text_wrong` | propext Classical.choice Quot.sound |
| C54 | `Verif.Lookup.match_array_differs` | propext Classical.choice Quot.sound |
| C54 | `Verif.Lookup.match_error_skipped` | propext Classical.choice Quot.sound |
| C55 | `Verif.Lookup.exact_array_partial` | propext Classical.choice Quot.sound |
| C55 | `Verif.Lookup.exact_view_partial` | propext Classical.choice Quot.sound |
| C55 | `Verif.Lookup.exact_index_partial` | propext Classical.choice Quot.sound |
| C55 | `Verif.Lookup.matchExact_correct_partial` | propext Classical.choice Quot.sound |
| C55 | `Verif.Lookup.matchExact_wild_partial` | propext Classical.choice Quot.sound |
| C55 | `Verif.Lookup.xmatch_correct_partial` | propext Classical.choice Quot.sound |
| C55 | `Verif.Lookup.xlookup_correct_partial` | propext Classical.choice Quot.sound |
| C55 | `Verif.Lookup.exact_array_range_wrong` | propext Classical.choice Quot.sound |
| C55 | `Verif.Lookup.exact_wild_wrong` | propext Classical.choice Quot.sound |
| C55 | `Verif.Lookup.exact_cache_wrong` | propext Classical.choice Quot.sound |
| C55 | `Verif.Lookup.matchExact_calls_wrong` | propext Classical.choice Quot.sound |
| C55 | `Verif.Lookup.xlookup_unsorted_wrong` | propext Classical.choice Quot.sound |
| C55 | `Verif.Lookup.xmatch_text_wrong` | propext Classical.choice Quot.sound |
| C55 | `Verif.Lookup.xmatch_blank_wrong` | propext Classical.choice Quot.sound |
| C55 | `Verif.Lookup.index_near_integer` | propext Classical.choice Quot.sound |
| C55 | `Verif.Lookup.xlookup_incomparable` | propext Classical.choice Quot.sound |
| C56 | `Verif.Store.lanes_roundtrip` | propext Classical.choice Quot.sound |
| C56 | `Verif.Store.overlay_last_write` | propext Classical.choice Quot.sound |
| C56 | `Verif.Store.overlay_last_write_exact` | propext Classical.choice Quot.sound |
| C56 | `Verif.Store.overlay_covered` | propext Classical.choice Quot.sound |
| C56 | `Verif.Store.overlay_len` | propext Classical.choice Quot.sound |
| C56 | `Verif.Store.overlay_any` | propext Classical.choice Quot.sound |
| C56 | `Verif.Store.overlay_iter` | propext Classical.choice Quot.sound |
| C56 | `Verif.Store.overlay_slice` | propext Classical.choice Quot.sound |
| C56 | `Verif.Store.bytes_reported` | propext Classical.choice Quot.sound |
| C56 | `Verif.Store.bytes_exact_partial` | propext Classical.choice Quot.sound |
| C56 | `Verif.Store.bytes_drift_wrong` | propext Quot.sound |
| C56 | `Verif.Store.run_zero_wrong` | propext Quot.sound |
| C57 | `Verif.Store.arrays_agree` | propext Classical.choice Quot.sound |
| C57 | `Verif.Store.select_cells` | propext Classical.choice Quot.sound |
| C57 | `Verif.Store.pointScalar_cells` | propext Classical.choice Quot.sound |
| C58 | `Verif.Store.sheet_reads_partial` | propext Classical.choice Quot.sound |
| C58 | `Verif.Store.sheet_reads_exact_partial` | propext Classical.choice Quot.sound |
| C58 | `Verif.Store.ingested_reads_partial` | propext Classical.choice Quot.sound |
| C58 | `Verif.Store.ingest_reads` | propext Classical.choice Quot.sound |
| C58 | `Verif.Store.insertRows_grid` | propext Classical.choice Quot.sound |
| C58 | `Verif.Store.deleteRows_grid` | propext Classical.choice Quot.sound |
| C58 | `Verif.Store.ensureRows_grid` | propext Classical.choice Quot.sound |
| C58 | `Verif.Store.insertCols_grid` | propext Classical.choice Quot.sound |
| C58 | `Verif.Store.deleteCols_grid` | propext Quot.sound |
| C58 | `Verif.Store.reach_grid` | propext Classical.choice Quot.sound |
| C58 | `Verif.Store.compactUser_good` | propext Classical.choice Quot.sound |
| C58 | `Verif.Store.compactComputed_good` | propext Classical.choice Quot.sound |
| C58 | `Verif.Store.slices_fit` | propext Classical.choice Quot.sound |
| C58 | `Verif.Store.big_insert_wrong` | propext Quot.sound |
| C58 | `Verif.Store.no_columns_wrong` | propext Quot.sound |
| C58 | `Verif.Store.columns_gone_wrong` | propext Quot.sound |
| C58 | `Verif.Store.raw_entry_wrong` | propext Quot.sound |
| C59 | `Verif.Plane.AxisRange.contains_iff` | propext Quot.sound |
| C59 | `Verif.Plane.AxisRange.intersects_iff` | propext Classical.choice Quot.sound |
| C59 | `Verif.Plane.AxisRange.intersection_spec` | propext Classical.choice Quot.sound |
| C59 | `Verif.Plane.AxisRange.containsRange_iff` | propext Classical.choice Quot.sound |
| C59 | `Verif.Plane.AxisRange.normalized_has` | propext Classical.choice Quot.sound |
| C59 | `Verif.Plane.AxisRange.projectThroughOffset_has` | propext Classical.choice Quot.sound |
| C59 | `Verif.Plane.Region.containsKey_iff` | propext Quot.sound |
| C59 | `Verif.Plane.Region.intersects_iff` | propext Classical.choice Quot.sound |
| C59 | `Verif.Plane.Region.intersection_spec` | propext Classical.choice Quot.sound |
| C59 | `Verif.Plane.Region.containsRegion_iff` | propext Classical.choice Quot.sound |
| C59 | `Verif.Plane.Region.normalized_has` | propext Classical.choice Quot.sound |
| C59 | `Verif.Plane.Region.asPoint_some` | propext |
| C59 | `Verif.Plane.Index.query_exact` | propext Classical.choice Quot.sound |
| C60 | `Verif.Plane.stale_marked` | propext Classical.choice Quot.sound |
| C60 | `Verif.Plane.marked_exact` | propext Classical.choice Quot.sound |
| C60 | `Verif.Plane.stale_iff` | propext Classical.choice Quot.sound |
| C60 | `Verif.Plane.readProjections_spec` | propext Classical.choice Quot.sound |
| C60 | `Verif.Plane.constant_reads` | propext Classical.choice Quot.sound |
| C60 | `Verif.Plane.Span.deps_spec` | propext Classical.choice Quot.sound |
| C60 | `Verif.Plane.Closure.closure_complete` | propext Classical.choice Quot.sound |
| C60 | `Verif.Plane.Closure.closure_exact` | propext Classical.choice Quot.sound |
| C60 | `Verif.Plane.Closure.consumerQuery_spec` | propext Classical.choice Quot.sound |
| C60 | `Verif.Plane.project_exact` | propext Classical.choice Quot.sound |
| C60 | `Verif.Plane.project_sound` | propext Classical.choice Quot.sound |
| C60 | `Verif.Plane.readRegion_covers` | propext Classical.choice Quot.sound |
| C60 | `Verif.Plane.wholeCols_sound` | propext Classical.choice Quot.sound |
| C61 | `Verif.Plane.Edit.unchanged_tracks` | propext Classical.choice Quot.sound |
| C61 | `Verif.Plane.Edit.moved_tracks` | propext Classical.choice Quot.sound |
| C61 | `Verif.Plane.Edit.removed_gone` | propext Classical.choice Quot.sound |
| C61 | `Verif.Plane.Edit.halves_tracks_partial` | propext Classical.choice Quot.sound |
| C61 | `Verif.Plane.Edit.halves_shown` | propext Classical.choice Quot.sound |
| C61 | `Verif.Plane.Edit.run_tracks_partial` | propext Classical.choice Quot.sound |
| C61 | `Verif.Plane.Edit.compact_tracks_partial` | propext Classical.choice Quot.sound |
| C61 | `Verif.Plane.Edit.compact_reads` | propext Classical.choice Quot.sound |
| C61 | `Verif.Plane.Edit.compact_gives_up` | propext Classical.choice Quot.sound |
| C61 | `Verif.Plane.Edit.skipped_noOp` | propext Quot.sound |
| C61 | `Verif.Plane.Edit.fresh_good` | propext Classical.choice Quot.sound |
| C61 | `Verif.Plane.Edit.compact_misreads_offset` | propext Classical.choice Quot.sound |
| C61 | `Verif.Plane.Edit.compact_misreads_absolute` | propext Classical.choice Quot.sound |
| C61 | `Verif.Plane.Edit.compact_misreads_other_sheet` | propext Classical.choice Quot.sound |
| C61 | `Verif.Plane.Edit.compact_misreads_origin` | propext Quot.sound |
| C61 | `Verif.Plane.Edit.split_misreads_shared` | propext Quot.sound |
| C61 | `Verif.Plane.Edit.not_all_follow` | propext Classical.choice Quot.sound |
| C62 | `Verif.Arena.stored_is_read` | propext Classical.choice Quot.sound |
| C62 | `Verif.Arena.store_keeps` | propext Classical.choice Quot.sound |
| C62 | `Verif.Arena.refs_apart` | propext Quot.sound |
| C62 | `Verif.Arena.text_again` | propext Quot.sound |
| C62 | `Verif.Arena.image_eq` | propext Classical.choice Quot.sound |
| C62 | `Verif.Arena.large_int_panics` | propext Quot.sound |
| C62 | `Verif.Arena.large_int_panics_32` | propext Quot.sound |
| C62 | `Verif.Arena.wide_int_wrong` | propext Classical.choice Quot.sound |
| C62 | `Verif.Arena.date_becomes_dateTime` | propext Classical.choice Quot.sound |
| C62 | `Verif.Arena.time_becomes_dateTime` | propext Classical.choice Quot.sound |
| C62 | `Verif.Arena.error_payload_lost` | propext Classical.choice Quot.sound |
| C62 | `Verif.Arena.ragged_reshaped` | propext Classical.choice Quot.sound |
| C62 | `Verif.Arena.empty_row_lost` | propext Classical.choice Quot.sound |
| C63 | `Verif.Arena.formulas_kept` | propext Classical.choice Quot.sound |
| C63 | `Verif.Arena.formula_same` | propext Classical.choice Quot.sound |
| C63 | `Verif.Arena.follows_sheet` | propext Quot.sound |
| C63 | `Verif.Arena.same_name` | propext Quot.sound |
| C63 | `Verif.Arena.unknown_stays` | propext |
| C63 | `Verif.Arena.readsAst_det` | propext Quot.sound |
| C63 | `Verif.Arena.long_call_cut` | propext Classical.choice Quot.sound |
| C63 | `Verif.Arena.call_lost` | propext Classical.choice Quot.sound |
| C63 | `Verif.Arena.big_array_panics` | propext Quot.sound |
| C63 | `Verif.Arena.spelling_lost` | propext Classical.choice Quot.sound |
| C63 | `Verif.Arena.last_row_opens` | propext Classical.choice Quot.sound |
| C64 | `Verif.Arena.getId_iff` | propext Quot.sound |
| C64 | `Verif.Arena.names_differ` | propext Quot.sound |
| C64 | `Verif.Arena.new_sheet_fresh` | propext Quot.sound |
| C64 | `Verif.Arena.rename_only` | propext |
| C64 | `Verif.Arena.remove_only` | propext |
| C64 | `Verif.Arena.rename_refused` | propext Quot.sound |
| C64 | `Verif.Arena.too_many_sheets` | propext |
| C64 | `Verif.Arena.rename_revives` | propext Quot.sound |
| C65 | `Verif.Sheets.sheets_as_specified` | propext Classical.choice Quot.sound |
| C65 | `Verif.Sheets.read_as_specified` | propext Classical.choice Quot.sound |
| C65 | `Verif.Sheets.taken_refused` | propext |
| C65 | `Verif.Sheets.refused_rename_swaps` | propext |
| C65 | `Verif.Sheets.refused_rename_harmless` | propext |
| C65 | `Verif.Sheets.rename_missing_loses` | propext Quot.sound |
| C65 | `Verif.Sheets.case_rename_loses` | propext Quot.sound |
| C65 | `Verif.Sheets.write_other_case_unseen` | propext |
| C65 | `Verif.Sheets.duplicate_other_case_empty` | propext Quot.sound |
| C66 | `Verif.Sheets.formulas_survive` | propext Classical.choice Quot.sound |
| C66 | `Verif.Sheets.remove_add_restores` | propext Classical.choice Quot.sound |
| C66 | `Verif.Sheets.heal_step` | propext Classical.choice Quot.sound |
| C66 | `Verif.Sheets.half_healed_forgets` | propext Quot.sound |
| C66 | `Verif.Sheets.touched_not_healed` | propext Quot.sound |
| C66 | `Verif.Sheets.other_case_not_healed` | propext Quot.sound |
| C67 | `Verif.Template.payload_shape` | propext Classical.choice Quot.sound |
| C67 | `Verif.Template.bindingKey_inj` | propext Classical.choice Quot.sound |
| C67 | `Verif.Template.computes_own_iff` | propext Classical.choice Quot.sound |
| C67 | `Verif.Template.origin_computes_own` | propext Classical.choice Quot.sound |
| C67 | `Verif.Template.span_cells` | propext Classical.choice Quot.sound |
| C67 | `Verif.Template.span_constants` | propext Classical.choice Quot.sound |
| C67 | `Verif.Template.span_constant` | propext Classical.choice Quot.sound |
| C67 | `Verif.Template.span_computes_iff` | propext Classical.choice Quot.sound |
| C67 | `Verif.Template.span_computes_own` | propext Classical.choice Quot.sound |
| C67 | `Verif.Template.span_computes_same` | propext Classical.choice Quot.sound |
| C67 | `Verif.Template.text_one_node` | propext Quot.sound |
| C67 | `Verif.Template.shared_node_wrong` | propext Classical.choice Quot.sound |
| C68 | `Verif.Template.commit_ok` | propext Classical.choice Quot.sound |
| C68 | `Verif.Template.moved_cell_iff` | propext Classical.choice Quot.sound |
| C68 | `Verif.Template.own_template_iff` | propext Classical.choice Quot.sound |
| C68 | `Verif.Template.shared_template_iff` | propext Classical.choice Quot.sound |
| C68 | `Verif.Template.rising_wrong` | propext Quot.sound |
| C68 | `Verif.Template.shared_template_wrong` | propext Quot.sound |
| C68 | `Verif.Template.shared_one_wrong` | propext |
| C69 | `Verif.Template.same_key` | propext Quot.sound |
| C69 | `Verif.Template.forced_key` | propext Classical.choice Quot.sound |
| C69 | `Verif.Template.memo_values` | propext Quot.sound |
| C69 | `Verif.Template.memo_values_moved` | propext Classical.choice Quot.sound |
| C69 | `Verif.Template.memo_format_kept` | propext Quot.sound |
| C69 | `Verif.Template.captured_iff` | propext Quot.sound |
| C69 | `Verif.Template.memo_reads` | propext Quot.sound |
| C69 | `Verif.Template.one_reads` | propext Quot.sound |
| C69 | `Verif.Template.dates_lost` | propext Quot.sound |
| C69 | `Verif.Template.dates_lost_fixed` | none |
| C69 | `Verif.Template.short_target` | propext Quot.sound |
| C69 | `Verif.Template.fives_not_honest` | propext |
| C70 | `Verif.Arrays.sort_by_key` | propext Classical.choice Quot.sound |
| C70 | `Verif.Arrays.sort_cols_by_key` | propext Classical.choice Quot.sound |
| C70 | `Verif.Arrays.sort_numbers_partial` | propext Classical.choice Quot.sound |
| C70 | `Verif.Arrays.sort_texts_partial` | propext Classical.choice Quot.sound |
| C70 | `Verif.Arrays.sort_perm` | propext Classical.choice Quot.sound |
| C70 | `Verif.Arrays.sortby_numbers_partial` | propext Classical.choice Quot.sound |
| C70 | `Verif.Arrays.sortby_length` | propext Classical.choice Quot.sound |
| C70 | `Verif.Arrays.insertion_sorter` | propext Quot.sound |
| C70 | `Verif.Arrays.mixed_unsorted` | propext Classical.choice Quot.sound |
| C70 | `Verif.Arrays.texts_unsorted` | propext Classical.choice Quot.sound |
| C70 | `Verif.Arrays.texts_order_matters` | propext Classical.choice Quot.sound |
| C70 | `Verif.Arrays.close_unsorted` | propext Classical.choice Quot.sound |
| C70 | `Verif.Arrays.blank_between` | propext Classical.choice Quot.sound |
| C70 | `Verif.Arrays.index_below_one` | propext Classical.choice Quot.sound |
| C71 | `Verif.Arrays.truthy_iff` | propext Quot.sound |
| C71 | `Verif.Arrays.filter_rows` | propext Quot.sound |
| C71 | `Verif.Arrays.filter_column` | propext Quot.sound |
| C71 | `Verif.Arrays.filter_one_row` | propext Quot.sound |
| C71 | `Verif.Arrays.filter_columns_wrong` | propext Quot.sound |
| C71 | `Verif.Arrays.filter_error_ignored` | propext Quot.sound |
| C71 | `Verif.Arrays.unique_rows` | propext Classical.choice Quot.sound |
| C71 | `Verif.Arrays.unique_nodup` | propext Classical.choice Quot.sound |
| C71 | `Verif.Arrays.unique_cols` | propext Classical.choice Quot.sound |
| C71 | `Verif.Arrays.unique_cols_wrong` | propext Quot.sound |
| C71 | `Verif.Arrays.unique_case` | propext |
| C71 | `Verif.Arrays.unique_none` | propext Quot.sound |
| C72 | `Verif.Arrays.transpose_cells` | propext Quot.sound |
| C72 | `Verif.Arrays.transpose_twice` | propext Quot.sound |
| C72 | `Verif.Arrays.take_rows` | propext Classical.choice Quot.sound |
| C72 | `Verif.Arrays.drop_rows` | propext Classical.choice Quot.sound |
| C72 | `Verif.Arrays.take_both` | propext Classical.choice Quot.sound |
| C72 | `Verif.Arrays.take_beyond` | propext |
| C72 | `Verif.Arrays.vstack_rows` | propext Quot.sound |
| C72 | `Verif.Arrays.vstack_widths` | propext Quot.sound |
| C72 | `Verif.Arrays.hstack_rows` | propext Quot.sound |
| C72 | `Verif.Arrays.hstack_heights` | propext Quot.sound |
| C72 | `Verif.Arrays.vstack_take_drop` | propext Classical.choice Quot.sound |
| C72 | `Verif.Arrays.choosecols_cells` | propext Classical.choice Quot.sound |
| C72 | `Verif.Arrays.chooserows_rows` | propext Classical.choice Quot.sound |
| C72 | `Verif.Arrays.choose_beyond` | propext Classical.choice Quot.sound |
| C72 | `Verif.Arrays.tocol_cells` | propext Classical.choice Quot.sound |
| C72 | `Verif.Arrays.torow_cells` | propext Classical.choice Quot.sound |
| C72 | `Verif.Arrays.sequence_cells` | propext Classical.choice Quot.sound |
| C73 | `Verif.Texts.left_spec` | propext Quot.sound |
| C73 | `Verif.Texts.right_spec` | propext Quot.sound |
| C73 | `Verif.Texts.left_right` | propext Quot.sound |
| C73 | `Verif.Texts.mid_spec` | propext Classical.choice Quot.sound |
| C73 | `Verif.Texts.replace_spec_partial` | propext Quot.sound |
| C73 | `Verif.Texts.replace_beyond` | propext Quot.sound |
| C73 | `Verif.Texts.places_bad` | propext Quot.sound |
| C73 | `Verif.Texts.find_iff` | propext Classical.choice Quot.sound |
| C73 | `Verif.Texts.find_none` | propext Classical.choice Quot.sound |
| C73 | `Verif.Texts.find_mid` | propext Classical.choice Quot.sound |
| C73 | `Verif.Texts.find_empty` | propext Quot.sound |
| C73 | `Verif.Texts.search_iff` | propext Classical.choice Quot.sound |
| C73 | `Verif.Texts.search_none` | propext Classical.choice Quot.sound |
| C73 | `Verif.Texts.asciiLower_eq` | propext Quot.sound |
| C73 | `Verif.Texts.search_tilde` | propext Classical.choice Quot.sound |
| C73 | `Verif.Texts.search_accents` | propext Classical.choice Quot.sound |
| C73 | `Verif.Texts.trim_words` | propext Quot.sound |
| C73 | `Verif.Texts.trim_trim` | propext Quot.sound |
| C73 | `Verif.Texts.trim_newline` | propext |
| C74 | `Verif.Texts.splits_exists` | propext Quot.sound |
| C74 | `Verif.Texts.splits_unique` | propext |
| C74 | `Verif.Texts.splits_join` | propext Quot.sound |
| C74 | `Verif.Texts.substitute_spec` | propext Quot.sound |
| C74 | `Verif.Texts.substitute_self` | propext Quot.sound |
| C74 | `Verif.Texts.substitute_count` | propext Quot.sound |
| C74 | `Verif.Texts.substitute_nth` | propext Quot.sound |
| C74 | `Verif.Texts.textbefore_spec` | propext Classical.choice Quot.sound |
| C74 | `Verif.Texts.textafter_spec` | propext Classical.choice Quot.sound |
| C74 | `Verif.Texts.before_after` | propext Classical.choice Quot.sound |
| C74 | `Verif.Texts.textsplit_one` | propext Classical.choice Quot.sound |
| C74 | `Verif.Texts.textsplit_ignore` | propext Classical.choice Quot.sound |
| C74 | `Verif.Texts.textsplit_rows_partial` | propext Classical.choice Quot.sound |
| C74 | `Verif.Texts.textsplit_empty_row` | propext Classical.choice Quot.sound |
| C74 | `Verif.Texts.textsplit_panics` | propext Quot.sound |
| C74 | `Verif.Texts.textjoin_spec` | propext Quot.sound |
| C74 | `Verif.Texts.join_split` | propext Classical.choice Quot.sound |
| C74 | `Verif.Texts.split_join` | propext Classical.choice Quot.sound |
| C75 | `Verif.Ops.sanitize_spec` | propext |
| C75 | `Verif.Ops.broadcast_one` | propext |
| C75 | `Verif.Ops.unary_number` | propext Quot.sound |
| C75 | `Verif.Ops.compare_cell` | propext Quot.sound |
| C75 | `Verif.Ops.broadcast_arrays` | propext Quot.sound |
| C75 | `Verif.Ops.broadcast_unfit` | propext Classical.choice Quot.sound |
| C75 | `Verif.Ops.broadcast_right` | propext Quot.sound |
| C75 | `Verif.Ops.broadcast_left` | propext Quot.sound |
| C75 | `Verif.Ops.compare_arrays` | propext Quot.sound |
| C75 | `Verif.Ops.compare_error` | propext Quot.sound |
| C75 | `Verif.Ops.toArith_iff` | propext Quot.sound |
| C75 | `Verif.Ops.arith_ok` | propext Quot.sound |
| C75 | `Verif.Ops.arith_error` | propext Quot.sound |
| C75 | `Verif.Ops.arith_finite` | propext Quot.sound |
| C75 | `Verif.Ops.power_ok` | propext Classical.choice Quot.sound |
| C75 | `Verif.Ops.power_zero` | propext Classical.choice Quot.sound |
| C75 | `Verif.Ops.unary_cells` | propext Quot.sound |
| C75 | `Verif.Ops.concat_text` | none |
| C75 | `Verif.Ops.concat_error` | none |
| C75 | `Verif.Ops.concat_array` | none |
| C76 | `Verif.Ops.cmpStr_lt` | propext Classical.choice Quot.sound |
| C76 | `Verif.Ops.cmpStr_eq` | propext Quot.sound |
| C76 | `Verif.Ops.cmpStr_swap` | propext Quot.sound |
| C76 | `Verif.Ops.cmpStr_trans` | propext Quot.sound |
| C76 | `Verif.Ops.holds_ops` | propext Quot.sound |
| C76 | `Verif.Ops.holds_swap` | propext Quot.sound |
| C76 | `Verif.Ops.holds_one` | propext Classical.choice Quot.sound |
| C76 | `Verif.Ops.holds_total_partial` | propext Classical.choice Quot.sound |
| C76 | `Verif.Ops.holds_nan` | propext Quot.sound |
| C76 | `Verif.Ops.holds_nan_self` | propext Quot.sound |
| C76 | `Verif.Ops.holds_numbers` | propext Quot.sound |
| C76 | `Verif.Ops.holds_texts` | propext Quot.sound |
| C76 | `Verif.Ops.holds_trans_partial` | propext Classical.choice Quot.sound |
| C76 | `Verif.Ops.holds_cycle` | propext Quot.sound |
| C76 | `Verif.Ops.holds_eq_intransitive` | propext Quot.sound |
| C76 | `Verif.Ops.holds_kinds` | propext Quot.sound |
| C76 | `Verif.Ops.holds_empty` | propext Quot.sound |
| C77 | `Verif.Ops.Ranges.extent_covers_partial` | propext Quot.sound |
| C77 | `Verif.Ops.Ranges.extent_inside` | propext Quot.sound |
| C77 | `Verif.Ops.Ranges.extent_both_open` | propext Quot.sound |
| C77 | `Verif.Ops.Ranges.at_closed` | propext Classical.choice Quot.sound |
| C77 | `Verif.Ops.Ranges.at_rectangle` | propext Classical.choice Quot.sound |
| C77 | `Verif.Ops.Ranges.at_range_closed` | propext |
| C77 | `Verif.Ops.Ranges.at_row_partial` | propext Quot.sound |
| C77 | `Verif.Ops.Ranges.at_open_rectangle` | propext Classical.choice Quot.sound |
| C77 | `Verif.Ops.Ranges.at_column_partial` | propext Quot.sound |
| C77 | `Verif.Ops.Ranges.at_column_below` | propext Quot.sound |
| C77 | `Verif.Ops.Ranges.at_column_single` | propext Quot.sound |
| C77 | `Verif.Ops.Ranges.combine_smallest` | propext Classical.choice Quot.sound |
| C77 | `Verif.Ops.Ranges.combine_sheets` | propext |
| C77 | `Verif.Ops.Ranges.combine_reversed` | none |
| C78 | `Verif.Local.visit_reads` | propext Quot.sound |
| C78 | `Verif.Local.value_by_reads_partial` | propext Classical.choice Quot.sound |
| C78 | `Verif.Local.value_by_declared_partial` | propext Classical.choice Quot.sound |
| C78 | `Verif.Local.eval_halts` | propext Classical.choice Quot.sound |
| C78 | `Verif.Local.let_range_wrong` | propext |
| C79 | `Verif.Local.bound_is_value_partial` | propext Classical.choice Quot.sound |
| C79 | `Verif.Local.let_is_value_partial` | propext Classical.choice Quot.sound |
| C79 | `Verif.Local.call_is_value_partial` | propext Classical.choice Quot.sound |
| C79 | `Verif.Local.let_nested` | propext Classical.choice Quot.sound |
| C79 | `Verif.Local.params_spec` | propext Quot.sound |
| C79 | `Verif.Local.let_is_value_wrong` | propext |
| C80 | `Verif.Scc.error_ends_partial` | propext Classical.choice Quot.sound |
| C80 | `Verif.Scc.exact_solves` | propext Classical.choice Quot.sound |
| C80 | `Verif.Scc.exact_unique` | propext Classical.choice Quot.sound |
| C80 | `Verif.Scc.solution_unique` | propext Classical.choice Quot.sound |
| C80 | `Verif.Scc.budget_never_partial` | propext Classical.choice Quot.sound |
| C80 | `Verif.Scc.evaluate_ends` | propext Classical.choice Quot.sound |
| C80 | `Verif.Scc.passes_bounded` | propext Classical.choice Quot.sound |
| C80 | `Verif.Scc.forward_one_pass` | propext Classical.choice Quot.sound |
| C80 | `Verif.Scc.stamped_are_cycles` | propext Classical.choice Quot.sound |
| C80 | `Verif.Scc.excluded_circ` | propext Quot.sound |
| C80 | `Verif.Scc.stamped_solves_partial` | propext Classical.choice Quot.sound |
| C80 | `Verif.Scc.analyze_right` | propext Classical.choice Quot.sound |
| C80 | `Verif.Scc.late_solution` | propext Classical.choice Quot.sound |
| C80 | `Verif.Scc.circ_without_cycle` | propext Quot.sound |
| C80 | `Verif.Scc.stamped_solves_wrong` | propext Quot.sound |
| C81 | `Verif.Scc.converged_close` | propext Quot.sound |
| C81 | `Verif.Scc.converged_solves` | propext Classical.choice Quot.sound |
| C81 | `Verif.Scc.unchanged_solves` | propext Classical.choice Quot.sound |
| C81 | `Verif.Scc.one_iteration` | propext Quot.sound |
| C81 | `Verif.Scc.known_right` | propext Classical.choice Quot.sound |
| C81 | `Verif.Scc.evaluate_ends` | propext Classical.choice Quot.sound |
| C81 | `Verif.Scc.passes_bounded` | propext Classical.choice Quot.sound |
| C81 | `Verif.Scc.Conv.conv_iff` | propext Classical.choice Quot.sound |
| C81 | `Verif.Scc.Conv.close_symm` | propext Classical.choice Quot.sound |
| C81 | `Verif.Scc.Conv.close_mono` | propext Classical.choice Quot.sound |
| C81 | `Verif.Scc.Conv.close_self` | propext Classical.choice Quot.sound |
| C81 | `Verif.Scc.Conv.conv_below` | propext Classical.choice Quot.sound |
| C81 | `Verif.Scc.Conv.converged_values` | propext Classical.choice Quot.sound |
| C82 | `Verif.Base.toDec_eq` | propext Quot.sound |
| C82 | `Verif.Base.read_back` | propext Classical.choice Quot.sound |
| C82 | `Verif.Base.ofDec_defined` | propext Classical.choice Quot.sound |
| C82 | `Verif.Base.ofDec_places` | propext Classical.choice Quot.sound |
| C82 | `Verif.Base.write_back` | propext Classical.choice Quot.sound |
| C82 | `Verif.Base.cross_eq` | propext Classical.choice Quot.sound |
| C82 | `Verif.Base.cross_reads` | propext Classical.choice Quot.sound |
| C82 | `Verif.Base.decimal_base` | propext Classical.choice Quot.sound |
| C82 | `Verif.Base.base_spec` | propext Classical.choice Quot.sound |
| C82 | `Verif.Base.arabic_eq` | propext Quot.sound |
| C82 | `Verif.Base.arabic_neg` | propext Quot.sound |
| C82 | `Verif.Base.classic_numeral` | propext Quot.sound |
| C82 | `Verif.Base.arabic_roman` | propext Classical.choice Quot.sound |
| C82 | `Verif.Base.roman_defined` | propext Classical.choice Quot.sound |
| C82 | `Verif.Base.roman_injective` | propext Classical.choice Quot.sound |
| C82 | `Verif.Base.forms_wrong` | propext Classical.choice Quot.sound |
| C83 | `Verif.Rows.set_spec` | propext Classical.choice Quot.sound |
| C83 | `Verif.Rows.setRange_spec` | propext Classical.choice Quot.sound |
| C83 | `Verif.Rows.insertRows_spec` | propext Classical.choice Quot.sound |
| C83 | `Verif.Rows.deleteRows_spec` | propext Classical.choice Quot.sound |
| C83 | `Verif.Rows.isEmpty_iff` | propext Quot.sound |
| C83 | `Verif.Rows.hidden_history` | propext Classical.choice Quot.sound |
| C83 | `Verif.Rows.mask_history` | propext Classical.choice Quot.sound |
| C83 | `Verif.Rows.visible_history` | propext Classical.choice Quot.sound |
| C83 | `Verif.Rows.stored_iff` | propext Classical.choice Quot.sound |
| C83 | `Verif.Rows.insert_delete` | propext Classical.choice Quot.sound |
| C83 | `Verif.Rows.undo_restores_partial` | propext Classical.choice Quot.sound |
| C83 | `Verif.Rows.step_hidden` | propext Classical.choice Quot.sound |
| C83 | `Verif.Rows.undo_insert_wrong` | propext Quot.sound |
| C83 | `Verif.Rows.undo_hide_insert_wrong` | propext Quot.sound |
| C83 | `Verif.Rows.version_repeats` | propext Quot.sound |
| C84 | `Verif.Agg.slices_perm` | propext Quot.sound |
| C84 | `Verif.Agg.sum_ranges` | propext Classical.choice Quot.sound |
| C84 | `Verif.Agg.count_ranges` | propext Quot.sound |
| C84 | `Verif.Agg.average_ranges` | propext Classical.choice Quot.sound |
| C84 | `Verif.Agg.max_ranges` | propext Classical.choice Quot.sound |
| C84 | `Verif.Agg.min_ranges` | propext Classical.choice Quot.sound |
| C84 | `Verif.Agg.countA_ranges` | propext Quot.sound |
| C84 | `Verif.Agg.countBlank_partial` | propext Quot.sound |
| C84 | `Verif.Agg.maxOf_spec` | propext Classical.choice Quot.sound |
| C84 | `Verif.Agg.minOf_spec` | propext Classical.choice Quot.sound |
| C84 | `Verif.Agg.subtotal_names` | propext Classical.choice Quot.sound |
| C84 | `Verif.Agg.subtotal_countA` | propext Classical.choice Quot.sound |
| C84 | `Verif.Agg.subtotal_error` | propext Classical.choice Quot.sound |
| C84 | `Verif.Agg.subtotal_hidden` | propext Classical.choice Quot.sound |
| C84 | `Verif.Agg.aggregate_subtotal` | propext Classical.choice Quot.sound |
| C84 | `Verif.Agg.aggregate_ignores` | propext Classical.choice Quot.sound |
| C84 | `Verif.Agg.aggregate_ignores_all` | propext Classical.choice Quot.sound |
| C84 | `Verif.Agg.subtotal_order` | propext Classical.choice Quot.sound |
| C84 | `Verif.Agg.sum_order` | propext Classical.choice Quot.sound |
| C84 | `Verif.Agg.sum_parts` | propext Classical.choice Quot.sound |
| C84 | `Verif.Agg.count_parts` | propext Classical.choice Quot.sound |
| C84 | `Verif.Agg.average_count` | propext Classical.choice Quot.sound |
| C84 | `Verif.Agg.average_between` | propext Classical.choice Quot.sound |
| C84 | `Verif.Agg.variance_sums` | propext Classical.choice Quot.sound |
| C84 | `Verif.Agg.variance_shift` | propext Classical.choice Quot.sound |
| C84 | `Verif.Agg.sum_args` | propext Classical.choice Quot.sound |
| C84 | `Verif.Agg.average_args` | propext Classical.choice Quot.sound |
| C84 | `Verif.Agg.max_args` | propext Classical.choice Quot.sound |
| C84 | `Verif.Agg.min_args` | propext Classical.choice Quot.sound |
| C84 | `Verif.Agg.count_args` | propext Classical.choice Quot.sound |
| C84 | `Verif.Agg.scalar_error` | propext Classical.choice Quot.sound |
| C84 | `Verif.Agg.subtotal_args` | propext Classical.choice Quot.sound |
| C84 | `Verif.Agg.keepRows_history` | propext Classical.choice Quot.sound |
| C84 | `Verif.Agg.error_by_storage` | propext Classical.choice Quot.sound |
| C84 | `Verif.Agg.subtotal_count_wrong` | propext Classical.choice Quot.sound |
| C84 | `Verif.Agg.count_error_wrong` | propext Quot.sound |
| C84 | `Verif.Agg.countBlank_below_wrong` | propext Quot.sound |
| C84 | `Verif.Agg.text_value_differs` | propext Classical.choice Quot.sound |
| C85 | `Verif.Snap.rows_current_partial` | propext Classical.choice Quot.sound |
| C85 | `Verif.Snap.cols_current_partial` | propext Classical.choice Quot.sound |
| C85 | `Verif.Snap.after_edit` | propext Classical.choice Quot.sound |
| C85 | `Verif.Snap.rows_repeat` | propext Quot.sound |
| C85 | `Verif.Snap.spill_stale` | propext Quot.sound |
| C85 | `Verif.Snap.Index.index_current_partial` | propext Quot.sound |
| C85 | `Verif.Snap.Index.index_cells_partial` | propext Quot.sound |
| C85 | `Verif.Snap.Index.index_after_edit` | propext Quot.sound |
| C85 | `Verif.Snap.Index.index_bytes` | propext |
| C85 | `Verif.Snap.Index.index_kept` | propext Quot.sound |
| C85 | `Verif.Snap.Index.index_full` | propext Quot.sound |
| C85 | `Verif.Snap.Index.index_threshold` | propext Classical.choice Quot.sound |
| C85 | `Verif.Snap.Index.index_built` | propext Classical.choice Quot.sound |
| C85 | `Verif.Snap.Index.index_stale` | propext |
| C86 | `Verif.Order.small_spec` | propext Classical.choice Quot.sound |
| C86 | `Verif.Order.large_small` | propext Classical.choice Quot.sound |
| C86 | `Verif.Order.large_spec` | propext Classical.choice Quot.sound |
| C86 | `Verif.Order.small_mono` | propext Classical.choice Quot.sound |
| C86 | `Verif.Order.percentile_inc_linear` | propext Classical.choice Quot.sound |
| C86 | `Verif.Order.percentile_inc_ends` | propext Classical.choice Quot.sound |
| C86 | `Verif.Order.percentile_inc_error` | propext Classical.choice Quot.sound |
| C86 | `Verif.Order.percentile_inc_mono` | propext Classical.choice Quot.sound |
| C86 | `Verif.Order.percentile_exc_error` | propext Classical.choice Quot.sound |
| C86 | `Verif.Order.percentile_exc_inc` | propext Classical.choice Quot.sound |
| C86 | `Verif.Order.quartile_inc_percentile` | propext Classical.choice Quot.sound |
| C86 | `Verif.Order.quartile_exc_percentile` | propext Classical.choice Quot.sound |
| C86 | `Verif.Order.median_agrees` | propext Classical.choice Quot.sound |
| C86 | `Verif.Order.median_half` | propext Classical.choice Quot.sound |
| C86 | `Verif.Order.order_perm` | propext Classical.choice Quot.sound |
| C86 | `Verif.Order.rank_eq_spec` | propext Classical.choice Quot.sound |
| C86 | `Verif.Order.rank_avg_spec` | propext Classical.choice Quot.sound |
| C86 | `Verif.Order.rank_avg_both` | propext Classical.choice Quot.sound |
| C86 | `Verif.Order.rank_small_wrong` | propext Classical.choice Quot.sound |
| C86 | `Verif.Order.mode_single_head` | propext Classical.choice Quot.sound |
| C86 | `Verif.Order.mode_mult_partial` | propext Classical.choice Quot.sound |
| C86 | `Verif.Order.trimmean_spec` | propext Classical.choice Quot.sound |
| C86 | `Verif.Order.trimmean_zero` | propext Classical.choice Quot.sound |
| C86 | `Verif.Order.laws_perm` | propext Classical.choice Quot.sound |
| C86 | `Verif.Order.percentrank_outside` | propext Classical.choice Quot.sound |
| C86 | `Verif.Order.percentrank_inc_inverse` | propext Classical.choice Quot.sound |
| C86 | `Verif.Order.percentrank_exc_inverse` | propext Classical.choice Quot.sound |
| C86 | `Verif.Order.percentrank_cut` | propext Classical.choice Quot.sound |
| C86 | `Verif.Order.frequency_spec` | propext Classical.choice Quot.sound |
| C86 | `Verif.Order.collect_spec` | propext Quot.sound |
| C86 | `Verif.Order.no_panic_partial` | propext Classical.choice Quot.sound |
| C86 | `Verif.Order.nan_panics` | propext Classical.choice Quot.sound |
| C87 | `Verif.Fin.fv_balance` | propext Classical.choice Quot.sound |
| C87 | `Verif.Fin.pmt_fv` | propext Classical.choice Quot.sound |
| C87 | `Verif.Fin.pv_fv` | propext Classical.choice Quot.sound |
| C87 | `Verif.Fin.fv_pv` | propext Classical.choice Quot.sound |
| C87 | `Verif.Fin.fv_pmt` | propext Classical.choice Quot.sound |
| C87 | `Verif.Fin.nper_fv` | propext Classical.choice Quot.sound |
| C87 | `Verif.Fin.nper_none` | propext Classical.choice Quot.sound |
| C87 | `Verif.Fin.ipmt_end` | propext Classical.choice Quot.sound |
| C87 | `Verif.Fin.ppmt_sum_end` | propext Classical.choice Quot.sound |
| C87 | `Verif.Fin.ppmt_ipmt` | propext Classical.choice Quot.sound |
| C87 | `Verif.Fin.ipmt_due` | propext Classical.choice Quot.sound |
| C87 | `Verif.Fin.ppmt_due_wrong` | propext Classical.choice Quot.sound |
| C87 | `Verif.Fin.cum_sum` | propext Classical.choice Quot.sound |
| C87 | `Verif.Fin.cumprinc_wrong` | propext Classical.choice Quot.sound |
| C87 | `Verif.Fin.cumipmt_wrong` | propext Classical.choice Quot.sound |
| C87 | `Verif.Fin.nominal_effect` | propext Classical.choice Quot.sound |
| C87 | `Verif.Fin.effect_nominal` | propext Classical.choice Quot.sound |
| C87 | `Verif.Fin.rri_grows` | propext Classical.choice Quot.sound |
| C87 | `Verif.Fin.pduration_grows` | propext Classical.choice Quot.sound |
| C87 | `Verif.Fin.npv_cons` | propext Classical.choice Quot.sound |
| C87 | `Verif.Fin.npv_pv` | propext Classical.choice Quot.sound |
| C87 | `Verif.Fin.ispmt_left` | propext Classical.choice Quot.sound |
| C87 | `Verif.Fin.sln_total` | propext Classical.choice Quot.sound |
| C87 | `Verif.Fin.syd_total` | propext Classical.choice Quot.sound |
| C87 | `Verif.Fin.ddb_spec` | propext Classical.choice Quot.sound |
| C87 | `Verif.Fin.ddb_zero` | propext Classical.choice Quot.sound |
| C87 | `Verif.Fin.db_bounds` | propext Classical.choice Quot.sound |
| C87 | `Verif.Fin.db_residual` | propext Classical.choice Quot.sound |
| C87 | `Verif.Fin.dollarde_reads` | propext Classical.choice Quot.sound |
| C87 | `Verif.Fin.dollarfr_writes` | propext Classical.choice Quot.sound |
| C87 | `Verif.Fin.dollar_neg` | propext Classical.choice Quot.sound |
| C87 | `Verif.Fin.dollar_wrong` | propext Classical.choice Quot.sound |
| C87 | `Verif.Fin.cum_iff` | propext Classical.choice Quot.sound |
| C87 | `Verif.Fin.db_ends` | propext Classical.choice Quot.sound |
| C88 | `Verif.Solve.irrNpv_cons` | propext Classical.choice Quot.sound |
| C88 | `Verif.Solve.irrDeriv_spec` | propext Classical.choice Quot.sound |
| C88 | `Verif.Solve.brent_found` | propext Classical.choice Quot.sound |
| C88 | `Verif.Solve.irr_partial` | propext Classical.choice Quot.sound |
| C88 | `Verif.Solve.bracketed_found` | propext Classical.choice Quot.sound |
| C88 | `Verif.Solve.irr_needs_two` | propext Classical.choice Quot.sound |
| C88 | `Verif.Solve.irr_gives` | propext Classical.choice Quot.sound |
| C88 | `Verif.Solve.irr_unique` | propext Classical.choice Quot.sound |
| C88 | `Verif.Solve.irr_half_wrong` | propext Classical.choice Quot.sound |
| C88 | `Verif.Solve.rate_end` | propext Classical.choice Quot.sound |
| C88 | `Verif.Solve.rate_due` | propext Classical.choice Quot.sound |
| C88 | `Verif.Solve.rate_deriv_due` | propext Classical.choice Quot.sound |
| C88 | `Verif.Solve.rate_fixed` | propext Classical.choice Quot.sound |
| C88 | `Verif.Solve.mirr_grows` | propext Classical.choice Quot.sound |
| C88 | `Verif.Solve.xirr_found` | propext Classical.choice Quot.sound |
| C88 | `Verif.Solve.xirr_signs` | propext Classical.choice Quot.sound |
| C88 | `Verif.Solve.xnpv_yearly` | propext Classical.choice Quot.sound |
| C88 | `Verif.Solve.xnpv_shift` | propext Classical.choice Quot.sound |
| C89 | `Verif.Round.round_spec` | propext Classical.choice Quot.sound |
| C89 | `Verif.Round.nearest_unique` | propext Classical.choice Quot.sound |
| C89 | `Verif.Round.rounddown_spec` | propext Classical.choice Quot.sound |
| C89 | `Verif.Round.roundup_spec` | propext Classical.choice Quot.sound |
| C89 | `Verif.Round.round_nan` | propext Classical.choice Quot.sound |
| C89 | `Verif.Round.round_inf` | propext Classical.choice Quot.sound |
| C89 | `Verif.Round.mod_spec` | propext Classical.choice Quot.sound |
| C89 | `Verif.Round.mod_error` | propext Classical.choice Quot.sound |
| C89 | `Verif.Round.quotient_spec` | propext Classical.choice Quot.sound |
| C89 | `Verif.Round.ceiling_spec` | propext Classical.choice Quot.sound |
| C89 | `Verif.Round.floor_spec` | propext Classical.choice Quot.sound |
| C89 | `Verif.Round.math_mode` | propext Classical.choice Quot.sound |
| C89 | `Verif.Round.mround_spec` | propext Classical.choice Quot.sound |
| C89 | `Verif.Round.even_spec` | propext Classical.choice Quot.sound |
| C89 | `Verif.Round.odd_spec` | propext Classical.choice Quot.sound |
| C89 | `Verif.Round.even_wrong` | propext Classical.choice Quot.sound |
| C89 | `Verif.Round.gcd_spec` | propext Classical.choice Quot.sound |
| C89 | `Verif.Round.gcd_error` | propext Classical.choice Quot.sound |
| C89 | `Verif.Round.lcm_spec` | propext Classical.choice Quot.sound |
| C89 | `Verif.Round.lcm_fits` | propext Classical.choice Quot.sound |
| C89 | `Verif.Round.lcm_wrong` | propext Classical.choice Quot.sound |
| C89 | `Verif.Round.combin_spec` | propext Classical.choice Quot.sound |
| C89 | `Verif.Round.combin_error` | propext Classical.choice Quot.sound |
| C89 | `Verif.Round.combina_partial` | propext Classical.choice Quot.sound |
| C89 | `Verif.Round.combina_zero` | propext Classical.choice Quot.sound |
| C89 | `Verif.Round.fact_spec` | propext Classical.choice Quot.sound |
| C89 | `Verif.Round.factdouble_spec` | propext Classical.choice Quot.sound |
| C89 | `Verif.Round.permut_spec` | propext Classical.choice Quot.sound |
| C89 | `Verif.Round.multinomial_spec` | propext Classical.choice Quot.sound |
| C89 | `Verif.Round.multinomial_negative` | propext Classical.choice Quot.sound |
| C89 | `Verif.Round.multinomial_wrong` | propext Classical.choice Quot.sound |
| C90 | `Verif.Spool.frame_fits` | propext Classical.choice Quot.sound |
| C90 | `Verif.Spool.frame_reads` | propext Classical.choice Quot.sound |
| C90 | `Verif.Spool.frame_cut` | propext Classical.choice Quot.sound |
| C90 | `Verif.Spool.trailing_refused` | propext Classical.choice Quot.sound |
| C90 | `Verif.Spool.cut_reported` | propext Classical.choice Quot.sound |
| C90 | `Verif.Spool.frame_injective` | propext Classical.choice Quot.sound |
| C90 | `Verif.Spool.spool_replays` | propext Classical.choice Quot.sound |
| C90 | `Verif.Spool.spool_limits` | propext Classical.choice Quot.sound |
| C90 | `Verif.Spool.spool_accepts` | propext Classical.choice Quot.sound |
| C90 | `Verif.Spool.replay_spec` | propext Quot.sound |
| C90 | `Verif.Spool.formulaAt_spec` | propext Quot.sound |
| C90 | `Verif.Spool.replay_total` | propext Quot.sound |
| C91 | `Verif.Evid.partition_spec` | propext Classical.choice Quot.sound |
| C91 | `Verif.Evid.partition_ok` | propext Classical.choice Quot.sound |
| C91 | `Verif.Evid.clean_sound` | propext Classical.choice Quot.sound |
| C91 | `Verif.Evid.fragmented_sound` | propext Classical.choice Quot.sound |
| C91 | `Verif.Evid.finish_total` | propext Classical.choice Quot.sound |
| C91 | `Verif.Evid.conflict_marked` | propext Classical.choice Quot.sound |
| C91 | `Verif.Evid.exclusions_bounded` | propext Quot.sound |
| C91 | `Verif.Evid.no_holes_before` | propext |
| C92 | `Verif.Struct.reads` | propext Classical.choice Quot.sound |
| C92 | `Verif.Struct.addressable` | propext Classical.choice Quot.sound |
| C92 | `Verif.Struct.writes_unique` | propext Classical.choice Quot.sound |
| C92 | `Verif.Struct.accepted_shape` | propext Classical.choice Quot.sound |
| C92 | `Verif.Struct.printed_reads` | propext Classical.choice Quot.sound |
| C92 | `Verif.Struct.table_printed_reads` | propext Classical.choice Quot.sound |
| C92 | `Verif.Struct.bare_printed_reads` | propext Classical.choice Quot.sound |
| C92 | `Verif.Struct.colon_misread` | propext Classical.choice Quot.sound |
| C92 | `Verif.Struct.hash_misread` | propext Classical.choice Quot.sound |
| C92 | `Verif.Struct.bracket_unreadable` | propext Classical.choice Quot.sound |
| C92 | `Verif.Struct.apostrophe_misread` | propext Classical.choice Quot.sound |
| C92 | `Verif.Struct.nested_misread` | propext Classical.choice Quot.sound |
| C92 | `Verif.Struct.bare_column` | propext Classical.choice Quot.sound |
| C92 | `Verif.Struct.comma_refused` | propext Classical.choice Quot.sound |
| C92 | `Verif.Struct.at_range_misread` | propext Classical.choice Quot.sound |
| C93 | `Verif.Tables.eval_selects` | propext Classical.choice Quot.sound |
| C93 | `Verif.Tables.eval_unknown` | propext Classical.choice Quot.sound |
| C93 | `Verif.Tables.parts_of_table` | propext Classical.choice Quot.sound |
| C93 | `Verif.Tables.inspect_agrees` | propext Classical.choice Quot.sound |
| C93 | `Verif.Tables.this_row` | propext Classical.choice Quot.sound |
| C93 | `Verif.Tables.this_row_only` | propext Quot.sound |
| C93 | `Verif.Tables.this_row_inside` | propext Classical.choice Quot.sound |
| C93 | `Verif.Tables.inspect_this_row` | propext Classical.choice Quot.sound |
| C93 | `Verif.Tables.containing_order` | propext Classical.choice Quot.sound |
| C93 | `Verif.Tables.target_covers` | propext Classical.choice Quot.sound |
| C93 | `Verif.Tables.resolves` | propext Quot.sound |
| C93 | `Verif.Tables.names_differ` | propext Quot.sound |
| C93 | `Verif.Tables.define_found` | propext Quot.sound |
| C93 | `Verif.Tables.update_found` | propext Quot.sound |
| C93 | `Verif.Tables.totals_read_as_data` | propext |
| C93 | `Verif.Tables.inspect_misses` | propext Quot.sound |
| C93 | `Verif.Tables.inspect_headers_as_data` | propext |
| C93 | `Verif.Tables.inspect_union_lost` | propext |
| C93 | `Verif.Tables.combinations_unread` | none |
| C93 | `Verif.Tables.target_differs` | propext |
| C93 | `Verif.Tables.insert_loses_row` | propext Quot.sound |
| C93 | `Verif.Tables.totals_row_differs` | propext |
| C93 | `Verif.Tables.named_row_unread` | none |
| C93 | `Verif.Tables.holds_iff` | propext |
| C94 | `Verif.Csv.last_write` | propext Quot.sound |
| C94 | `Verif.Csv.range_read` | propext Quot.sound |
| C94 | `Verif.Csv.array_printed` | propext Quot.sound |
| C94 | `Verif.Csv.never_written` | propext |
| C94 | `Verif.Csv.written_inside` | propext Classical.choice Quot.sound |
| C94 | `Verif.Csv.range_saved_iff` | propext Classical.choice Quot.sound |
| C94 | `Verif.Csv.range_saved` | propext Classical.choice Quot.sound |
| C94 | `Verif.Csv.open_cells` | propext Classical.choice Quot.sound |
| C94 | `Verif.Csv.open_bounds` | propext Classical.choice Quot.sound |
| C94 | `Verif.Csv.save_then_open` | propext Classical.choice Quot.sound |
| C94 | `Verif.Csv.open_then_save` | propext Classical.choice Quot.sound |
| C94 | `Verif.Csv.read_int_iff` | propext Classical.choice Quot.sound |
| C94 | `Verif.Csv.read_bool_iff` | propext Quot.sound |
| C94 | `Verif.Csv.text_comes_back_iff` | propext Classical.choice Quot.sound |
| C94 | `Verif.Csv.text_kept_when_off` | propext Quot.sound |
| C94 | `Verif.Csv.int_comes_back` | propext Classical.choice Quot.sound |
| C94 | `Verif.Csv.bool_comes_back` | propext Quot.sound |
| C94 | `Verif.Csv.fraction_comes_back` | propext Classical.choice Quot.sound |
| C94 | `Verif.Csv.integral_number` | propext Classical.choice Quot.sound |
| C94 | `Verif.Csv.large_becomes_text` | propext Classical.choice Quot.sound |
| C94 | `Verif.Csv.least_int_lost` | propext Classical.choice Quot.sound |
| C94 | `Verif.Csv.large_number_lost` | propext Classical.choice Quot.sound |
| C94 | `Verif.Csv.texts_change` | propext Quot.sound |
| C94 | `Verif.Csv.errors_become_texts` | propext Quot.sound |
| C94 | `Verif.Csv.failed_save_truncates` | propext |
| C94 | `Verif.Csv.clear_keeps_bounds` | propext |
| C94 | `Verif.Csv.row_zero_not_saved` | propext |
| C95 | `Verif.Ledger.admitted_iff` | propext Classical.choice Quot.sound |
| C95 | `Verif.Ledger.shares` | propext Quot.sound |
| C95 | `Verif.Ledger.shares_exact` | propext Quot.sound |
| C95 | `Verif.Ledger.share_overflow` | none |
| C95 | `Verif.Ledger.legacy_fills` | propext Classical.choice Quot.sound |
| C95 | `Verif.Ledger.legacy_reported` | propext |
| C95 | `Verif.Ledger.refused_unchanged` | none |
| C95 | `Verif.Ledger.scratch_granted_iff` | propext Classical.choice Quot.sound |
| C95 | `Verif.Ledger.can_schedule_iff` | propext Classical.choice Quot.sound |
| C95 | `Verif.Ledger.retain_cases` | propext Classical.choice Quot.sound |
| C95 | `Verif.Ledger.charge_cases` | propext Classical.choice Quot.sound |
| C95 | `Verif.Ledger.mixed_cases` | propext Classical.choice Quot.sound |
| C95 | `Verif.Ledger.window_granted_iff` | propext Quot.sound |
| C95 | `Verif.Ledger.deadline_stays` | propext Quot.sound |
| C95 | `Verif.Ledger.limits_kept` | propext Classical.choice Quot.sound |
| C95 | `Verif.Ledger.observed_exceeds` | none |
| C95 | `Verif.Ledger.peak_is_largest` | propext Classical.choice Quot.sound |
| C95 | `Verif.Ledger.retained_peak_is_largest` | propext Classical.choice Quot.sound |
| C95 | `Verif.Ledger.back_to_checkpoint` | propext Quot.sound |
| C95 | `Verif.Ledger.reserve_release` | propext Classical.choice Quot.sound |
| C95 | `Verif.Ledger.share_taken` | none |
| C95 | `Verif.Ledger.sources_starved` | propext Classical.choice Quot.sound |
| C95 | `Verif.Ledger.exhaustion_reported` | propext Classical.choice Quot.sound |
| C96 | `Verif.Trans.rollback_restores` | propext Classical.choice Quot.sound |
| C96 | `Verif.Trans.savepoint_restores` | propext Classical.choice Quot.sound |
| C96 | `Verif.Trans.commit_iff` | none |
| C96 | `Verif.Trans.refused_unchanged` | propext |
| C96 | `Verif.Trans.begin_iff` | propext Quot.sound |
| C96 | `Verif.Trans.begin_refused` | none |
| C96 | `Verif.Trans.ids_increase` | propext Quot.sound |
| C96 | `Verif.Trans.never_panics` | propext Classical.choice Quot.sound |
| C96 | `Verif.Trans.savepoint_used_up` | propext Classical.choice Quot.sound |
| C96 | `Verif.Trans.equal_savepoint_lost` | propext Classical.choice Quot.sound |
| C96 | `Verif.Trans.second_name_ignored` | propext Classical.choice Quot.sound |
| C96 | `Verif.Trans.failed_rollback_ends` | propext |
| C96 | `Verif.Trans.clear_panics` | propext |
| C96 | `Verif.Trans.clear_forgets` | propext |
| C96 | `Verif.Trans.cell_reversible_iff` | propext Quot.sound |
| C96 | `Verif.Trans.editor_reversible_iff` | propext Quot.sound |
| C96 | `Verif.Trans.overwritten_value_lost` | propext Quot.sound |
| C97 | `Verif.RefFn.index_cells_partial` | propext Classical.choice Quot.sound |
| C97 | `Verif.RefFn.index_one` | propext Classical.choice Quot.sound |
| C97 | `Verif.RefFn.index_fraction` | propext Classical.choice Quot.sound |
| C97 | `Verif.RefFn.index_needs_numbers` | propext Classical.choice Quot.sound |
| C97 | `Verif.RefFn.index_array_agrees` | propext Classical.choice Quot.sound |
| C97 | `Verif.RefFn.offset_cells_partial` | propext Classical.choice Quot.sound |
| C97 | `Verif.RefFn.offset_compose` | propext Classical.choice Quot.sound |
| C97 | `Verif.RefFn.index_is_offset` | propext Classical.choice Quot.sound |
| C97 | `Verif.RefFn.size_of_read` | propext Classical.choice Quot.sound |
| C97 | `Verif.RefFn.address_iff` | propext Classical.choice Quot.sound |
| C97 | `Verif.RefFn.indirect_address_partial` | propext Classical.choice Quot.sound |
| C97 | `Verif.RefFn.indirect_cell_in_grid` | propext Classical.choice Quot.sound |
| C97 | `Verif.RefFn.index_far_wrong` | propext Classical.choice Quot.sound |
| C97 | `Verif.RefFn.index_array_far_wrong` | propext Classical.choice Quot.sound |
| C97 | `Verif.RefFn.index_unordered` | propext Classical.choice Quot.sound |
| C97 | `Verif.RefFn.index_column_cut` | propext Classical.choice Quot.sound |
| C97 | `Verif.RefFn.beyond_panics` | propext Classical.choice Quot.sound |
| C97 | `Verif.RefFn.offset_far_wrong` | propext Classical.choice Quot.sound |
| C97 | `Verif.RefFn.offset_overflow` | propext Classical.choice Quot.sound |
| C97 | `Verif.RefFn.rows_unordered_wrong` | propext |
| C97 | `Verif.RefFn.indirect_colon_wrong` | propext |
| C97 | `Verif.RefFn.indirect_range_beyond` | propext |
| C98 | `Verif.Logic.trichotomy` | propext Quot.sound |
| C98 | `Verif.Logic.and_spec` | propext Classical.choice Quot.sound |
| C98 | `Verif.Logic.or_spec` | propext Classical.choice Quot.sound |
| C98 | `Verif.Logic.and_cases` | propext Classical.choice Quot.sound |
| C98 | `Verif.Logic.or_cases` | propext Classical.choice Quot.sound |
| C98 | `Verif.Logic.and_perm` | propext Classical.choice Quot.sound |
| C98 | `Verif.Logic.and_failing` | propext Quot.sound |
| C98 | `Verif.Logic.de_morgan` | propext Classical.choice Quot.sound |
| C98 | `Verif.Logic.xor_spec` | propext Classical.choice Quot.sound |
| C98 | `Verif.Logic.if_yes` | propext Quot.sound |
| C98 | `Verif.Logic.if_no` | propext Quot.sound |
| C98 | `Verif.Logic.if_failing` | propext Quot.sound |
| C98 | `Verif.Logic.ifs_first` | propext Classical.choice Quot.sound |
| C98 | `Verif.Logic.ifs_none` | propext Classical.choice Quot.sound |
| C98 | `Verif.Logic.ifs_error` | propext Quot.sound |
| C98 | `Verif.Logic.iferror_spec` | propext |
| C98 | `Verif.Logic.array_value` | propext |
| C98 | `Verif.Logic.iferror_scalar` | propext Classical.choice Quot.sound |
| C98 | `Verif.Logic.ifna_spec` | propext |
| C98 | `Verif.Logic.switch_first` | propext Classical.choice Quot.sound |
| C98 | `Verif.Logic.switch_default` | propext Classical.choice Quot.sound |
| C98 | `Verif.Logic.same_numbers` | propext Classical.choice Quot.sound |
| C98 | `Verif.Logic.same_texts` | propext Classical.choice Quot.sound |
| C98 | `Verif.Logic.same_kinds` | propext Classical.choice Quot.sound |
| C98 | `Verif.Logic.choose_spec` | propext Classical.choice Quot.sound |
| C98 | `Verif.Logic.choose_fraction` | propext Classical.choice Quot.sound |
| C98 | `Verif.Logic.concat_texts` | propext Quot.sound |
| C98 | `Verif.Logic.if_error_lost` | propext Quot.sound |
| C98 | `Verif.Logic.if_error_refuted` | propext Quot.sound |
| C98 | `Verif.Logic.iferror_refuted` | propext |
| C98 | `Verif.Logic.ifna_refuted` | propext |
| C98 | `Verif.Logic.and_blank_refuted` | propext Quot.sound |
| C98 | `Verif.Logic.xor_first_refuted` | propext Quot.sound |
| C98 | `Verif.Logic.concat_error_text` | propext Quot.sound |
| C98 | `Verif.Logic.concat_error_refuted` | propext Quot.sound |
| C99 | `Verif.Delta.report_exact` | propext Classical.choice Quot.sound |
| C99 | `Verif.Delta.record_spec` | propext Quot.sound |
| C99 | `Verif.Delta.run_iff` | propext Classical.choice Quot.sound |
| C99 | `Verif.Delta.cells_exact` | propext Classical.choice Quot.sound |
| C99 | `Verif.Delta.pack_inj` | propext Classical.choice Quot.sound |
| C99 | `Verif.Delta.unlimited` | propext Classical.choice Quot.sound |
| C99 | `Verif.Delta.singles_apart` | propext Classical.choice Quot.sound |
| C99 | `Verif.Delta.singles_limit` | propext Classical.choice Quot.sound |
| C99 | `Verif.Delta.limit_refuted` | propext Classical.choice Quot.sound |
| C99 | `Verif.Delta.changes_reported` | propext Quot.sound |
| C99 | `Verif.Delta.changes_listed` | propext Classical.choice Quot.sound |
| C99 | `Verif.Delta.reported_touched` | propext Quot.sound |
| C99 | `Verif.Delta.flush_exact` | propext Quot.sound |
| C99 | `Verif.Delta.write_exact` | propext |
| C99 | `Verif.Delta.clear_exact` | propext Quot.sound |
| C99 | `Verif.Delta.unchanged_refuted` | propext Quot.sound |
| C99 | `Verif.Delta.array_again` | propext Quot.sound |

# Axioms each claimed theorem depends on

Output of `#print axioms` for every theorem named in MANIFEST.json (regenerate by running it again).

| property | theorem | axioms |
|---|---|---|
| C01 | `Verif.Sort.C01_sort_ascending` | Classical.choice, Quot.sound, propext |
| C01 | `Verif.Sort.C01_C05_order_on_elements` | Classical.choice, Quot.sound, propext |
| C02 | `Verif.Sort.C02_sort_rearranges` | Classical.choice, Quot.sound, propext |
| C02 | `Verif.Sort.C02_stable_rearranges` | Classical.choice, Quot.sound, propext |
| C03 | `Verif.Sort.C03_returns_normally` | Classical.choice, Quot.sound, propext |
| C04 | `Verif.Sort.C04_stable_sorts` | Classical.choice, Quot.sound, propext |
| C04 | `Verif.Sort.C01_C05_order_on_elements` | Classical.choice, Quot.sound, propext |
| C05 | `Verif.Sort.C05_stable_is_stable` | Classical.choice, Quot.sound, propext |
| C05 | `Verif.Sort.C01_C05_order_on_elements` | Classical.choice, Quot.sound, propext |
| C06 | `Verif.Sort.C06_ordered_variants` | Classical.choice, Quot.sound, propext |
| C06 | `Verif.Sort.C06_sort_eq_stable` | Classical.choice, Quot.sound, propext |
| C06 | `Verif.Sort.Ordered.C06_as_written` | Classical.choice, Quot.sound, propext |
| C06 | `Verif.Sort.Ordered.C06_written_variants` | Classical.choice, Quot.sound, propext |
| C07 | `Verif.Sort.C07_lessFloat_partial` | Classical.choice, Quot.sound, propext |
| C07 | `Verif.Sort.C07_sortOrdered_partial` | Classical.choice, Quot.sound, propext |
| C07 | `Verif.Sort.C07_sortOrdered_false` | Classical.choice, Quot.sound, propext |
| C07 | `Verif.Xfn.sort_lessFloat` | Classical.choice, Quot.sound, propext |
| C07 | `Verif.Xfn.sortOrdered_float64_false` | Classical.choice, Quot.sound, propext |
| C07 | `Verif.Sort.NaN.C07_short` | Classical.choice, Quot.sound, propext |
| C07 | `Verif.Sort.NaN.C07_short_iff` | Classical.choice, Quot.sound, propext |
| C08 | `Verif.Algo.C08_lowerBound` | Classical.choice, Quot.sound, propext |
| C08 | `Verif.Algo.C08_invalid` | Classical.choice, Quot.sound, propext |
| C08 | `Verif.Algo.C08_C09_sorted` | Classical.choice, Quot.sound, propext |
| C09 | `Verif.Algo.C09_upperBound` | Classical.choice, Quot.sound, propext |
| C09 | `Verif.Algo.C08_invalid` | Classical.choice, Quot.sound, propext |
| C09 | `Verif.Algo.C08_C09_sorted` | Classical.choice, Quot.sound, propext |
| C10 | `Verif.Algo.C10_isSortedUntil` | Classical.choice, Quot.sound, propext |
| C10 | `Verif.Algo.C10_isSorted_ascending` | Classical.choice, Quot.sound, propext |
| C11 | `Verif.Algo.C11_nextPermutation` | Classical.choice, Quot.sound, propext |
| C12 | `Verif.Algo.C12_enumerates` | Classical.choice, Quot.sound, propext |
| C13 | `Verif.Algo.C13_reverse` | Classical.choice, Quot.sound, propext |
| C13 | `Verif.Algo.C13_swap` | Quot.sound, propext |
| C13 | `Verif.Algo.C13_reverse_slice` | Classical.choice, Quot.sound, propext |
| C14 | `Verif.Algo.C14_fillN` | Classical.choice, Quot.sound, propext |
| C14 | `Verif.Algo.C14_fillN_append` | Classical.choice, Quot.sound, propext |
| C15 | `Verif.Algo.C15_reverseRange_partial` | Classical.choice, Quot.sound, propext |
| C15 | `Verif.Algo.C15_write` | Classical.choice, Quot.sound, propext |
| C15 | `Verif.Algo.C15_reverseRandomRange_wrong` | Classical.choice, Quot.sound, propext |
| C15 | `Verif.Algo.C15_full_false` | Classical.choice, Quot.sound, propext |
| C16 | `Verif.Slice.C16_insertAt` | Classical.choice, Quot.sound, propext |
| C16 | `Verif.Slice.C16_delete` | Classical.choice, Quot.sound, propext |
| C16 | `Verif.Slice.C16_unorderedDelete` | Classical.choice, Quot.sound, propext |
| C16 | `Verif.Slice.C16_deleteLast` | Classical.choice, Quot.sound, propext |
| C17 | `Verif.Slice.C17_writes_in_window` | Classical.choice, Quot.sound, propext |
| C17 | `Verif.Slice.C17_other_slices` | Classical.choice, Quot.sound, propext |
| C18 | `Verif.Slice.C18_add` | Classical.choice, Quot.sound, propext |
| C18 | `Verif.Slice.C18_next_prev` | Quot.sound, propext |
| C18 | `Verif.Slice.C18_stays_inside` | Classical.choice, Quot.sound, propext |
| C18 | `Verif.Slice.C18_add_add` | Classical.choice, Quot.sound, propext |
| C18 | `Verif.Slice.C18_next_prev_inverse` | Quot.sound, propext |
| C18 | `Verif.Slice.C18_get_set` | Classical.choice, Quot.sound, propext |
| C19 | `Verif.Slice.C19_insert` | Classical.choice, Quot.sound, propext |
| C19 | `Verif.Slice.C19_fill` | Classical.choice, Quot.sound, propext |
| C19 | `Verif.Slice.C19_foreign` | propext |
| C20 | `Verif.Slice.C20_copy` | Classical.choice, Quot.sound, propext |
| C20 | `Verif.Slice.C20_reversed` | Classical.choice, Quot.sound, propext |
| C20 | `Verif.Slice.C20_later_writes` | Classical.choice, Quot.sound, propext |
| C20 | `Verif.Slice.C20_later_ops` | Classical.choice, Quot.sound, propext |
| C21 | `Verif.Slice.C21_newLenCap_partial` | Classical.choice, Quot.sound, propext |
| C21 | `Verif.Slice.C21_newLenCap_wrong` | Quot.sound, propext |
| C21 | `Verif.Slice.C21_newLenCap_false` | Quot.sound, propext |
| C21 | `Verif.Slice.C21_newLen` | Quot.sound, propext |
| C22 | `Verif.Ring.C22_ring_is_deque` | Classical.choice, Quot.sound, propext |
| C23 | `Verif.Ring.C23_fifo` | Classical.choice, Quot.sound, propext |
| C24 | `Verif.Ring.C24_capacity_bounds` | Classical.choice, Quot.sound, propext |
| C24 | `Verif.Ring.C24_growth_rule` | Classical.choice, Quot.sound, propext |
| C25 | `Verif.Ring.C25_dead_slots_zero` | Classical.choice, Quot.sound, propext |
| C26 | `Verif.Ring.C26_toSlice_disjoint_partial` | Quot.sound, propext |
| C26 | `Verif.Ring.C26_toSlice_history_partial` | Classical.choice, Quot.sound, propext |
| C26 | `Verif.Ring.C26_aliased_unrotated` | Classical.choice, Quot.sound, propext |
| C26 | `Verif.Ring.C26_fails_when_aliased` | propext |
| C26 | `Verif.Ring.C26_full_false` | propext |
| C26 | `Verif.Ring.C26_exact` | Classical.choice, Quot.sound, propext |
| C26 | `Verif.Ring.C26_keeps_iff` | Classical.choice, Quot.sound, propext |
| C26 | `Verif.Ring.C26_returns_iff` | Classical.choice, Quot.sound, propext |
| C27 | `Verif.ArrayMap.C27_arrayMap_partial` | Classical.choice, Quot.sound, propext |
| C27 | `Verif.ArrayMap.C27_delete_damages` | Classical.choice, Quot.sound, propext |
| C27 | `Verif.ArrayMap.C27_full_false` | Quot.sound, propext |
| C27 | `Verif.ArrayMap.C27_wrong_value` | Quot.sound, propext |
| C27 | `Verif.ArrayMap.C27_comes_back` | Quot.sound, propext |
| C27 | `Verif.ArrayMap.C27_exact` | Classical.choice, Quot.sound, propext |
| C28 | `Verif.ArrayMap.C28_len_at_partial` | Classical.choice, Quot.sound, propext |
| C28 | `Verif.ArrayMap.C28_full_false` | Quot.sound, propext |
| C28 | `Verif.ArrayMap.C28_delete_false` | Quot.sound, propext |
| C28 | `Verif.ArrayMap.C28_exact` | Classical.choice, Quot.sound, propext |
| C29 | `Verif.CustomMap.C29_C30_partial` | Classical.choice, Quot.sound, propext |
| C29 | `Verif.CustomMap.C29_C30_injective_partial` | Classical.choice, Quot.sound, propext |
| C29 | `Verif.CustomMap.C29_hits_partial` | Classical.choice, Quot.sound, propext |
| C29 | `Verif.CustomMap.C29_full_false` | Classical.choice, Quot.sound, propext |
| C29 | `Verif.CustomMap.C29_clash_loses` | Classical.choice, Quot.sound, propext |
| C29 | `Verif.CustomMap.C29_exact` | Classical.choice, Quot.sound, propext |
| C30 | `Verif.CustomMap.C29_C30_partial` | Classical.choice, Quot.sound, propext |
| C30 | `Verif.CustomMap.C29_C30_injective_partial` | Classical.choice, Quot.sound, propext |
| C30 | `Verif.CustomMap.C29_hits_partial` | Classical.choice, Quot.sound, propext |
| C30 | `Verif.CustomMap.C30_full_false` | Classical.choice, Quot.sound, propext |
| C30 | `Verif.CustomMap.C30_zero_false` | none |
| C30 | `Verif.CustomMap.C29_clash_loses` | Classical.choice, Quot.sound, propext |
| C30 | `Verif.CustomMap.C30_exact` | Classical.choice, Quot.sound, propext |
| C31 | `Verif.GoMap.C31_set` | Classical.choice, Quot.sound, propext |
| C32 | `Verif.GoMap.C32_enumerate` | Quot.sound, propext |
| C32 | `Verif.GoMap.C32_entries_lookup` | Quot.sound, propext |
| C32 | `Verif.GoMap.C32_clear_partial` | Classical.choice, Quot.sound, propext |
| C32 | `Verif.GoMap.C32_full_false` | Classical.choice, Quot.sound, propext |
| C33 | `Verif.Sharded.Props.C33_sharded_sequential` | Classical.choice, Quot.sound, propext |
| C34 | `Verif.Sharded.Props.C34_sharded_linearizable` | Classical.choice, Quot.sound, propext |
| C35 | `Verif.Sharded.Props.C35_one_value` | Classical.choice, Quot.sound, propext |
| C36 | `Verif.Sharded.Props.C36_race_free_partial` | Classical.choice, Quot.sound, propext |
| C36 | `Verif.Sharded.Props.C36_clear_races` | Quot.sound, propext |
| C36 | `Verif.Sharded.Props.C36_only_clear_races` | Classical.choice, Quot.sound, propext |
| C36 | `Verif.Sharded.RaceExact.C36_exact` | Classical.choice, Quot.sound, propext |
| C37 | `Verif.Sharded.Props.C37_len_empty_partial` | Classical.choice, Quot.sound, propext |
| C37 | `Verif.Sharded.Props.C37_full_false` | Quot.sound, propext |
| C37 | `Verif.Sharded.Props.C37_len_false` | Quot.sound, propext |
| C37 | `Verif.Sharded.C37_exact` | Classical.choice, Quot.sound, propext |
| C38 | `Verif.Sharded.Props.C38_no_deadlock` | Classical.choice, Quot.sound, propext |
| C39 | `Verif.AtomicValue.C39_linearizable_partial` | Quot.sound, propext |
| C39 | `Verif.AtomicValue.C39_exact_partial` | Quot.sound, propext |
| C39 | `Verif.AtomicValue.C39_full_false` | Quot.sound, propext |
| C39 | `Verif.AtomicValue.C39_iff` | Quot.sound, propext |
| C40 | `Verif.AtomicValue.C40_strict_partial` | Quot.sound, propext |
| C40 | `Verif.AtomicValue.C40_cas_only_partial` | Quot.sound, propext |
| C40 | `Verif.AtomicValue.C40_moment_partial` | Quot.sound, propext |
| C40 | `Verif.AtomicValue.C40_full_false` | Quot.sound, propext |
| C40 | `Verif.AtomicValue.C40_exact` | Classical.choice, Quot.sound, propext |
| C40 | `Verif.AtomicValue.C40_alone` | Classical.choice, Quot.sound, propext |
| C40 | `Verif.AtomicValue.C40_in_vain` | Classical.choice, Quot.sound, propext |
| C40 | `Verif.AtomicValue.C40_fails` | Quot.sound, propext |
| C41 | `Verif.AtomicValue.C41_zero_value` | Quot.sound, propext |
| C42 | `Verif.Stream.pipeline_partial` | Classical.choice, Quot.sound, propext |
| C42 | `Verif.Stream.pipeline_slice_partial` | Classical.choice, Quot.sound, propext |
| C42 | `Verif.Stream.pipeline_false` | Classical.choice, Quot.sound, propext |
| C42 | `Verif.Stream.C42_slice_exact` | Classical.choice, Quot.sound, propext |
| C42 | `Verif.Stream.C42_slice_iff` | Classical.choice, Quot.sound, propext |
| C42 | `Verif.Stream.C42_slice_skips` | Classical.choice, Quot.sound, propext |
| C42 | `Verif.Stream.C42_slice_partial` | Classical.choice, Quot.sound, propext |
| C42 | `Verif.Stream.C42_comes_back` | Classical.choice, Quot.sound, propext |
| C43 | `Verif.Stream.peek_parts` | Classical.choice, Quot.sound, propext |
| C43 | `Verif.Stream.peek_partial` | Classical.choice, Quot.sound, propext |
| C43 | `Verif.Stream.peek_prefix_partial` | Classical.choice, Quot.sound, propext |
| C43 | `Verif.Stream.peek_misses` | Classical.choice, Quot.sound, propext |
| C43 | `Verif.Stream.peek_overreads` | Classical.choice, Quot.sound, propext |
| C44 | `Verif.Stream.limit_partial` | Classical.choice, Quot.sound, propext |
| C44 | `Verif.Stream.generator_returns` | none |
| C44 | `Verif.Stream.limit_overreads` | Classical.choice, Quot.sound, propext |
| C44 | `Verif.Stream.limit_diverges` | Classical.choice, Quot.sound, propext |
| C45 | `Verif.Stream.reduce_lists` | Classical.choice, Quot.sound, propext |
| C45 | `Verif.Stream.slice_lists` | Classical.choice, Quot.sound, propext |
| C45 | `Verif.Stream.count_lists` | Classical.choice, Quot.sound, propext |
| C45 | `Verif.Stream.reduce_foldl` | Classical.choice, Quot.sound, propext |
| C45 | `Verif.Stream.collect_lists` | Classical.choice, Quot.sound, propext |
| C45 | `Verif.Stream.all_lists` | Classical.choice, Quot.sound, propext |
| C45 | `Verif.Stream.any_lists` | Classical.choice, Quot.sound, propext |
| C45 | `Verif.Stream.noneOf_lists` | Classical.choice, Quot.sound, propext |
| C45 | `Verif.Stream.first_lists` | Classical.choice, Quot.sound, propext |
| C46 | `Verif.Stream.finished_stays_partial` | Classical.choice, Quot.sound, propext |
| C46 | `Verif.Stream.finished_skip_panics` | Classical.choice, Quot.sound, propext |
| C46 | `Verif.Stream.next_none_finished` | Classical.choice, Quot.sound, propext |
| C46 | `Verif.Stream.finished_next` | Classical.choice, Quot.sound, propext |
| C46 | `Verif.Stream.C46_exact` | Classical.choice, Quot.sound, propext |
| C47 | `Verif.Stream.terms_exist` | Classical.choice, Quot.sound, propext |
| C47 | `Verif.Stream.terms_unique` | none |
| C47 | `Verif.Stream.range_partial` | Classical.choice, Quot.sound, propext |
| C47 | `Verif.Stream.range_runs_on` | Classical.choice, Quot.sound, propext |
| C47 | `Verif.Stream.range_endless` | Classical.choice, Quot.sound, propext |
| C47 | `Verif.Stream.rangeN_partial` | Classical.choice, Quot.sound, propext |
| C47 | `Verif.Stream.rangeN_false` | Classical.choice, Quot.sound, propext |
| C47 | `Verif.Stream.C47_exact` | Classical.choice, Quot.sound, propext |
| C47 | `Verif.Stream.C47_endless` | Classical.choice, Quot.sound, propext |
| C47 | `Verif.Stream.C47_stops_iff` | Quot.sound, propext |
| C47 | `Verif.Stream.C47_iff` | Classical.choice, Quot.sound, propext |
| C47 | `Verif.Stream.C47_sequence` | Quot.sound, propext |
| C48 | `Verif.Stream.skip_slice_partial` | Classical.choice, Quot.sound, propext |
| C48 | `Verif.Stream.skip_slice_false` | Classical.choice, Quot.sound, propext |
| C48 | `Verif.Stream.skip_range_partial` | Classical.choice, Quot.sound, propext |
| C48 | `Verif.Stream.skip_range_false` | Classical.choice, Quot.sound, propext |
| C48 | `Verif.Stream.skip_sequence` | Quot.sound, propext |
| C48 | `Verif.Stream.skip_generator` | Quot.sound, propext |
| C48 | `Verif.Stream.skip_bounded_partial` | Quot.sound, propext |
| C48 | `Verif.Stream.skip_bounded_false` | none |
| C48 | `Verif.Stream.skip_rand` | Classical.choice, Quot.sound, propext |
| C48 | `Verif.Stream.skip_fwd` | Quot.sound, propext |
| C48 | `Verif.Stream.skip_mapped_partial` | Classical.choice, Quot.sound, propext |
| C48 | `Verif.Stream.skip_mapped_pred` | Classical.choice, Quot.sound, propext |
| C48 | `Verif.Stream.skip_mapped_false` | Classical.choice, Quot.sound, propext |
| C48 | `Verif.Stream.C48_range_iff` | Quot.sound, propext |
| C48 | `Verif.Stream.C48_bounded_iff` | Quot.sound, propext |
| C48 | `Verif.Stream.C48_mapped_iff` | Classical.choice, Quot.sound, propext |
| C49 | `Verif.Stream.mapTo_next` | Classical.choice, Quot.sound, propext |
| C49 | `Verif.Stream.mapped_partial` | Classical.choice, Quot.sound, propext |
| C49 | `Verif.Stream.mapped_false` | Classical.choice, Quot.sound, propext |
| C49 | `Verif.Stream.C49_slice_exact` | Classical.choice, Quot.sound, propext |
| C50 | `Verif.Xfn.or_spec` | propext |
| C50 | `Verif.Xfn.not_spec` | propext |
| C50 | `Verif.Xfn.neg_spec` | none |
| C50 | `Verif.Xfn.method_or_spec` | propext |
| C50 | `Verif.Xfn.or_shortCircuit` | propext |
| C50 | `Verif.Xfn.and_is_or` | Quot.sound, propext |
| C50 | `Verif.Xfn.not_andIsAll` | propext |
| C50 | `Verif.Xfn.and_spec_partial` | Quot.sound, propext |
| C50 | `Verif.Xfn.and_correct_iff` | Quot.sound, propext |
| C51 | `Verif.Xfn.signed_total` | Classical.choice, Quot.sound, propext |
| C51 | `Verif.Xfn.unsigned_total` | Classical.choice, Quot.sound, propext |
| C51 | `Verif.Xfn.string_total` | propext |
| C51 | `Verif.Xfn.isEqAny_spec` | Quot.sound, propext |
| C51 | `Verif.Xfn.isEqAny_mem` | Quot.sound, propext |
| C51 | `Verif.Xfn.isNeqAny_spec` | propext |
| C51 | `Verif.Xfn.complementary` | none |
| C51 | `Verif.Xfn.hasPrefix_spec` | Quot.sound, propext |
| C51 | `Verif.Xfn.hasSuffix_spec` | Quot.sound, propext |
| C52 | `Verif.Xfn.lessFloat_nan` | propext |
| C52 | `Verif.Xfn.lessFloat_num` | propext |
| C52 | `Verif.Xfn.lessFloat_strictWeak` | Classical.choice, Quot.sound, propext |
| C52 | `Verif.Xfn.finite_lt_inf` | Classical.choice, Quot.sound, propext |
| C53 | `Verif.Xfn.fullComparatorOf_spec` | propext |
| C53 | `Verif.Xfn.fullComparatorOf_zero` | propext |
| C53 | `Verif.Xfn.min_max_spec` | propext |
| C53 | `Verif.Xfn.not_minCommFloat` | propext |
| C53 | `Verif.Xfn.min_max_nan` | propext |
| C53 | `Verif.Xfn.min_max_float_partial` | Quot.sound, propext |
| C53 | `Verif.Xfn.min_zeros` | propext |
| C53 | `Verif.Xfn.C53_float_exact` | Quot.sound, propext |
| C54 | `Verif.Xfn.bind_routes_partial` | Classical.choice, Quot.sound, propext |
| C54 | `Verif.Xfn.bind_variadic` | Classical.choice, Quot.sound, propext |
| C54 | `Verif.Xfn.not_bindRoutes` | propext |
| C55 | `Verif.Xfn.bind_returns_iff` | Classical.choice, Quot.sound, propext |
| C55 | `Verif.Xfn.bind_checks_partial` | Classical.choice, Quot.sound, propext |
| C55 | `Verif.Xfn.bind_variadic` | Classical.choice, Quot.sound, propext |
| C55 | `Verif.Xfn.not_bindChecks` | propext |
| C56 | `Verif.Xhash.uint64_bijective` | Quot.sound, propext |
| C56 | `Verif.Xhash.uint64Seed_bijective` | Quot.sound, propext |
| C56 | `Verif.Xhash.uint64Seed_seed_bijective` | Quot.sound, propext |
| C57 | `Verif.Xhash.write_aligned_partial` | Classical.choice, Quot.sound, propext |
| C57 | `Verif.Xhash.write_determined_partial` | Classical.choice, Quot.sound, propext |
| C57 | `Verif.Xhash.write_spec` | Classical.choice, Quot.sound, propext |
| C57 | `Verif.Xhash.write_panics_iff` | Classical.choice, Quot.sound, propext |
| C57 | `Verif.Xhash.write_short_panics` | Classical.choice, Quot.sound, propext |
| C57 | `Verif.Xhash.write_returns_too_much` | Classical.choice, Quot.sound, propext |
| C57 | `Verif.Xhash.write_reads_beyond` | Classical.choice, Quot.sound, propext |
| C57 | `Verif.Xhash.not_writeDetermined` | Classical.choice, Quot.sound, propext |
| C57 | `Verif.Xhash.reset_spec` | none |
| C58 | `Verif.Xhash.last_word` | Quot.sound, propext |
| C58 | `Verif.Xhash.sum_spec` | Quot.sound, propext |
| C59 | `Verif.Secrand.new_returns_iff` | Classical.choice, Quot.sound, propext |
| C59 | `Verif.Secrand.read_returns` | Classical.choice, Quot.sound, propext |
| C59 | `Verif.Secrand.calls_return` | Classical.choice, Quot.sound, propext |
| C59 | `Verif.Secrand.readN_fuel` | Classical.choice, Quot.sound, propext |
| C60 | `Verif.Secrand.erased` | Classical.choice, Quot.sound, propext |
| C61 | `Verif.Secrand.uint64_is_read` | Classical.choice, Quot.sound, propext |
| C61 | `Verif.Secrand.int63_spec` | Classical.choice, Quot.sound, propext |
| C62 | `Verif.Secrand.split_same` | Classical.choice, Quot.sound, propext |
| C63 | `Verif.Secrand.not_readXors` | Classical.choice, Quot.sound, propext |
| C63 | `Verif.Secrand.read_overwrites` | Classical.choice, Quot.sound, propext |
| C63 | `Verif.Secrand.read_xors_partial` | Classical.choice, Quot.sound, propext |
| C63 | `Verif.Secrand.C63_exact` | Classical.choice, Quot.sound, propext |
| C64 | `Verif.Xsync.lock_excludes` | Classical.choice, Quot.sound, propext |
| C64 | `Verif.Xsync.accesses_hold` | Classical.choice, Quot.sound, propext |
| C64 | `Verif.Xsync.sections_linearizable` | Classical.choice, Quot.sound, propext |
| C64 | `Verif.Xsync.no_deadlock` | Classical.choice, Quot.sound, propext |
| C64 | `Verif.Xsync.no_lost_update` | Classical.choice, Quot.sound, propext |
| C65 | `Verif.Xsync.Rand.never_shared` | Classical.choice, Quot.sound, propext |
| C65 | `Verif.Xsync.Rand.uses_own` | Classical.choice, Quot.sound, propext |
| C65 | `Verif.Xsync.Rand.put_back` | Classical.choice, Quot.sound, propext |
| C65 | `Verif.Xsync.Rand.put_back_at_return` | Classical.choice, Quot.sound, propext |
| C65 | `Verif.Xsync.Rand.master_locked` | Classical.choice, Quot.sound, propext |
| C65 | `Verif.Xsync.Rand.seeds_used_once` | Classical.choice, Quot.sound, propext |
| C66 | `Verif.Xsync.Pool.get_usable_partial` | propext |
| C66 | `Verif.Xsync.Pool.get_cases` | propext |
| C66 | `Verif.Xsync.Pool.not_getUsable` | none |
| C66 | `Verif.Xsync.Pool.zero_pool_panics` | propext |
| C66 | `Verif.Xsync.Pool.put_nil` | propext |
| C66 | `Verif.Xsync.Pool.get_not_more_than_put` | Classical.choice, Quot.sound, propext |
| C67 | `Verif.Sharded.Props.C67_entries_weakly_consistent` | Classical.choice, Quot.sound, propext |
| C68 | `Verif.AtomicValue.C68_wait_free` | Quot.sound, propext |
| C69 | `Verif.Xhash.one_word` | Quot.sound, propext |
| C69 | `Verif.Xhash.different_states` | Quot.sound, propext |
| C69 | `Verif.Xhash.write_one_word` | Classical.choice, Quot.sound, propext |
| C70 | `Verif.Secrand.split_free_partial` | Classical.choice, Quot.sound, propext |
| C70 | `Verif.Secrand.bytewise_noStraddles` | Classical.choice, Quot.sound, propext |
| C70 | `Verif.Secrand.straddle_differs` | Classical.choice, Quot.sound, propext |
| C70 | `Verif.Secrand.not_splitFree` | Classical.choice, Quot.sound, propext |
| C70 | `Verif.Secrand.C70_exact` | Classical.choice, Quot.sound, propext |
| C71 | `Verif.Secrand.key_kept` | Classical.choice, Quot.sound, propext |
| C71 | `Verif.Secrand.once_only` | Classical.choice, Quot.sound, propext |
| C72 | `Verif.Sort.C72_sort_comparisons` | Classical.choice, Quot.sound, propext |
| C73 | `Verif.Sort.C73_stable_comparisons` | Classical.choice, Quot.sound, propext |
| C73 | `Verif.Sort.C73_stable_comparisons_pure` | Classical.choice, Quot.sound, propext |
| C74 | `Verif.Sort.C74_sort_comparisons_any` | Classical.choice, Quot.sound, propext |
| C75 | `Verif.Sort.C75_ascending_unchanged` | Classical.choice, Quot.sound, propext |
| C75 | `Verif.Sort.C75_idempotent` | Classical.choice, Quot.sound, propext |
| C75 | `Verif.Sort.C75_stable_unchanged` | Classical.choice, Quot.sound, propext |
| C76 | `Verif.Sort.C76_panicking_comparator` | Classical.choice, Quot.sound, propext |
| C76 | `Verif.Sort.C76_no_panic` | none |
| C77 | `Verif.Ring.C77_amortised_resize` | Classical.choice, Quot.sound, propext |
| C77 | `Verif.Ring.C77_amortised_suffix` | Classical.choice, Quot.sound, propext |
| C77 | `Verif.Ring.C77_reads_free` | Classical.choice, Quot.sound, propext |
| C78 | `Verif.Xfn.C78_signed` | Classical.choice, Quot.sound, propext |
| C78 | `Verif.Xfn.C78_unsigned` | Quot.sound, propext |
| C78 | `Verif.Xfn.C78_divide_by_zero` | propext |
| C78 | `Verif.Xfn.C78_unsigned_div` | Quot.sound, propext |
| C78 | `Verif.Xfn.C78_signed_div` | Classical.choice, Quot.sound, propext |
| C78 | `Verif.Xfn.C78_plus_minus` | propext |
| C79 | `Verif.Algo.C79_search_calls` | Classical.choice, Quot.sound, propext |
| C79 | `Verif.Algo.C79_isSorted_calls` | Classical.choice, Quot.sound, propext |
| C79 | `Verif.Algo.lowerBoundM_pure` | Quot.sound, propext |
| C79 | `Verif.Algo.upperBoundM_pure` | Quot.sound, propext |
| C79 | `Verif.Algo.isSortedUntilM_pure` | Quot.sound, propext |
| C80 | `Verif.Algo.C80_nextPermutation_any` | Classical.choice, Quot.sound, propext |
| C80 | `Verif.Algo.nextPermutationM_pure` | Quot.sound, propext |
| C81 | `Verif.AtomicPtr.C81_linearizable` | Quot.sound, propext |
| C81 | `Verif.AtomicPtr.C81_wait_free` | Quot.sound, propext |
| C81 | `Verif.AtomicPtr.C81_single_winner` | Quot.sound, propext |
| C82 | `Verif.Stream.C82_slice_partial` | Classical.choice, Quot.sound, propext |
| C82 | `Verif.Stream.C82_slice_false` | Classical.choice, Quot.sound, propext |
| C82 | `Verif.Stream.C82_generator` | propext |
| C82 | `Verif.Stream.C82_bounded` | Quot.sound, propext |
| C82 | `Verif.Stream.C82_rand` | Classical.choice, Quot.sound, propext |
| C82 | `Verif.Stream.C82_fwd` | Quot.sound, propext |
| C82 | `Verif.Stream.C82_range` | propext |
| C82 | `Verif.Stream.C82_mapped` | Classical.choice, Quot.sound, propext |
| C83 | `Verif.Stream.C83_slice` | Classical.choice, Quot.sound, propext |
| C83 | `Verif.Stream.C83_generator` | none |
| C83 | `Verif.Stream.C83_bounded` | propext |
| C83 | `Verif.Stream.C83_rand` | Classical.choice, Quot.sound, propext |
| C83 | `Verif.Stream.C83_fwd` | Quot.sound, propext |
| C84 | `Verif.Algo.C84_iteratorAt` | Classical.choice, Quot.sound, propext |
| C84 | `Verif.Algo.C84_range` | Classical.choice, Quot.sound, propext |
| C84 | `Verif.Algo.C84_subRange` | Classical.choice, Quot.sound, propext |
| C84 | `Verif.Algo.C84_exchanged` | Classical.choice, Quot.sound, propext |
| C84 | `Verif.Algo.C84_iterSubRange` | Classical.choice, Quot.sound, propext |
| C85 | `Verif.Sharded.Props.C85_entries` | Classical.choice, Quot.sound, propext |
| C85 | `Verif.Sharded.Props.C85_keys` | Classical.choice, Quot.sound, propext |
| C85 | `Verif.Sharded.Props.C85_values` | Classical.choice, Quot.sound, propext |
| C85 | `Verif.Sharded.Props.C85_toMap` | Classical.choice, Quot.sound, propext |
| C85 | `Verif.Sharded.Props.C85_iterate` | Classical.choice, Quot.sound, propext |
| C85 | `Verif.Sharded.Props.C85_throughout` | Quot.sound, propext |
| C86 | `Verif.Sharded.Props.C86_user_code_under_lock` | Classical.choice, Quot.sound, propext |
| C86 | `Verif.Sharded.Props.C86_call_under_write_lock` | propext |
| C86 | `Verif.Sharded.Props.C86_write_under_read_lock` | Classical.choice, Quot.sound, propext |
| C86 | `Verif.Sharded.Props.C86_read_under_read_lock` | Classical.choice, Quot.sound, propext |
| C86 | `Verif.Sharded.Props.C86_crossed_calls` | propext |
| C86 | `Verif.Sharded.Props.C86_factory_deadlock` | Quot.sound, propext |
| C87 | `Verif.Sort.C87_sort_exchanges` | Classical.choice, Quot.sound, propext |
| C87 | `Verif.Sort.C87_sort_exchanges_order` | Classical.choice, Quot.sound, propext |
| C87 | `Verif.Sort.C87_stable_exchanges` | Classical.choice, Quot.sound, propext |
| C87 | `Verif.Sort.C87_exchanges_only` | Classical.choice, Quot.sound, propext |
| C88 | `Verif.Sort.C88_sort_depth` | Classical.choice, Quot.sound, propext |
| C88 | `Verif.Sort.C88_sort_depth_log` | Classical.choice, Quot.sound, propext |
| C88 | `Verif.Sort.C88_stable_depth` | Classical.choice, Quot.sound, propext |
| C88 | `Verif.Sort.C88_stable_depth_log` | Classical.choice, Quot.sound, propext |
| C89 | `Verif.Algo.C89_sort_then_search` | Classical.choice, Quot.sound, propext |
| C89 | `Verif.Algo.C89_sort_then_enumerate` | Classical.choice, Quot.sound, propext |
| C90 | `Verif.Sharded.Props.C90_clear_empties` | Classical.choice, Quot.sound, propext |
| C90 | `Verif.Sharded.Props.C90_clear_removes` | Classical.choice, Quot.sound, propext |
| C90 | `Verif.Sharded.Props.C90_left_after_clear` | Classical.choice, Quot.sound, propext |
| C90 | `Verif.Sharded.Props.C90_not_atomic` | Quot.sound, propext |
| C91 | `Verif.Sharded.Props.C91_shard_linearizable` | Classical.choice, Quot.sound, propext |
| C91 | `Verif.Sharded.Props.C91_one_shard` | Classical.choice, Quot.sound, propext |
| C91 | `Verif.Sharded.Props.C91_clear_not_linearizable` | Classical.choice, Quot.sound, propext |
| C92 | `Verif.Stream.C92_terminal_fails` | Classical.choice, Quot.sound, propext |
| C92 | `Verif.Stream.C92_endless` | Classical.choice, Quot.sound, propext |
| C92 | `Verif.Stream.C92_chain_fails` | Classical.choice, Quot.sound, propext |
| C93 | `Verif.Sort.C93_linear` | Quot.sound, propext |
| C93 | `Verif.Sort.C93_zero` | Quot.sound, propext |
| C93 | `Verif.Sort.C93_injective` | Quot.sound, propext |
| C93 | `Verif.Sort.C93_never_zero` | Classical.choice, Quot.sound, propext |
| C94 | `Verif.Xrand.C94_value` | Classical.choice, Quot.sound, propext |
| C94 | `Verif.Xrand.C94_uniform` | Classical.choice, Quot.sound, propext |
| C95 | `Verif.GoMap.C95_stream` | Classical.choice, Quot.sound, propext |
| C95 | `Verif.GoMap.C95_order_free` | Classical.choice, Quot.sound, propext |
| C96 | `Verif.Sort.C96_choosePivot` | Classical.choice, Quot.sound, propext |
| C97 | `Verif.Sort.C97_descending` | Classical.choice, Quot.sound, propext |
| C98 | `Verif.Sort.C98_breakPatterns` | Classical.choice, Quot.sound, propext |
| C99 | `Verif.Stream.C99_forward` | Classical.choice, Quot.sound, propext |
| C99 | `Verif.Stream.C99_random` | Classical.choice, Quot.sound, propext |
| C100 | `Verif.Xhash.not_chunked` | Classical.choice, Quot.sound, propext |
| C100 | `Verif.Xhash.C100_empty_write` | Classical.choice, Quot.sound, propext |
| C100 | `Verif.Xhash.C100_two_writes` | Classical.choice, Quot.sound, propext |
| C100 | `Verif.Xhash.C100_writes_partial` | Classical.choice, Quot.sound, propext |
| C100 | `Verif.Xhash.C100_sizes` | Classical.choice, Quot.sound, propext |
| C100 | `Verif.Xhash.C100_later` | Classical.choice, Quot.sound, propext |
| C100 | `Verif.Xhash.C100_empty_iff` | Classical.choice, Quot.sound, propext |
| C100 | `Verif.Xhash.C100_cut` | Classical.choice, Quot.sound, propext |
| C101 | `Verif.Sharded.C101_released_partial` | Classical.choice, Quot.sound, propext |
| C101 | `Verif.Sharded.C101_locked_forever` | Classical.choice, Quot.sound, propext |
| C101 | `Verif.Sharded.C101_leaves_locked` | Quot.sound, propext |
| C101 | `Verif.Sharded.C101_reader_forever` | Classical.choice, Quot.sound, propext |
| C101 | `Verif.Sharded.C101_leaves_reader` | Quot.sound, propext |
| C101 | `Verif.Sharded.not_locksReleased` | Quot.sound, propext |
| C101 | `Verif.Sharded.C101_exact` | Classical.choice, Quot.sound, propext |
| C102 | `Verif.Sharded.C102_one_map` | Classical.choice, Quot.sound, propext |
| C102 | `Verif.Sharded.C102_lost` | Classical.choice, Quot.sound, propext |
| C102 | `Verif.Sharded.C102_counted` | Classical.choice, Quot.sound, propext |
| C102 | `Verif.Sharded.body2_self` | propext |
| C103 | `Verif.RingMem.C103_own` | Classical.choice, Quot.sound, propext |
| C103 | `Verif.RingMem.C103_shared` | Classical.choice, Quot.sound, propext |
| C103 | `Verif.RingMem.C103_atRef` | Classical.choice, Quot.sound, propext |
| C103 | `Verif.RingMem.C103_toSlice` | Classical.choice, Quot.sound, propext |
| C104 | `Verif.Algo.C104_reverse` | Classical.choice, Quot.sound, propext |
| C104 | `Verif.Algo.C104_reverse_covers` | Quot.sound, propext |
| C104 | `Verif.Algo.C104_isSorted` | Classical.choice, Quot.sound, propext |
| C104 | `Verif.Algo.C104_nextPermutation` | Classical.choice, Quot.sound, propext |
| C104 | `Verif.Algo.C104_slice` | Classical.choice, Quot.sound, propext |
| C104 | `Verif.Algo.C104_foreign` | Quot.sound, propext |
| C104 | `Verif.Algo.C104_foreign_slice` | Quot.sound, propext |
| C105 | `Verif.Secrand.C105_every` | Classical.choice, Quot.sound, propext |
| C105 | `Verif.Secrand.C105_formula` | Quot.sound, propext |
| C105 | `Verif.Secrand.C105_output` | Classical.choice, Quot.sound, propext |
| C105 | `Verif.Secrand.C105_large` | Classical.choice, Quot.sound, propext |
| C105 | `Verif.Secrand.C105_newRNG` | Classical.choice, Quot.sound, propext |
| C105 | `Verif.Secrand.C105_reader` | Classical.choice, Quot.sound, propext |
| C106 | `Verif.Stream.Panics.C106_pipeline` | Classical.choice, Quot.sound, propext |
| C106 | `Verif.Stream.Panics.C106_mapTo` | Classical.choice, Quot.sound, propext |
| C106 | `Verif.Stream.Panics.C106_terminal` | Classical.choice, Quot.sound, propext |
| C106 | `Verif.Stream.Panics.C106_slice` | Classical.choice, Quot.sound, propext |
| C106 | `Verif.Stream.Panics.C106_all_any` | Classical.choice, Quot.sound, propext |
| C106 | `Verif.Stream.Panics.C106_reduce` | Classical.choice, Quot.sound, propext |
| C106 | `Verif.Stream.Panics.agrees` | Classical.choice, Quot.sound, propext |
| C106 | `Verif.Stream.Panics.C106_generator` | none |
| C106 | `Verif.Stream.Panics.C106_sliceSource` | Quot.sound, propext |
| C107 | `Verif.Stream.C107_string` | Classical.choice, Quot.sound, propext |
| C107 | `Verif.Stream.C107_injective` | Classical.choice, Quot.sound, propext |
| C107 | `Verif.Stream.C107_ambiguous` | propext |
| C108 | `Verif.Sharded.C108_ways` | propext |
| C108 | `Verif.Sharded.C108_hash` | propext |
| C108 | `Verif.Sharded.C108_newSharded` | Classical.choice, Quot.sound, propext |
| C108 | `Verif.Sharded.C108_defaultSeed` | Classical.choice, Quot.sound, propext |
| C109 | `Verif.Xfn.C109_message` | Classical.choice, Quot.sound, propext |
| C109 | `Verif.Xfn.C109_unique` | Quot.sound, propext |
| C109 | `Verif.Xfn.C109_ordinal` | Quot.sound, propext |
| C109 | `Verif.Xfn.C109_message_partial` | Classical.choice, Quot.sound, propext |
| C109 | `Verif.Xfn.C109_eleven` | propext |
| C109 | `Verif.Xfn.C109_false` | Quot.sound, propext |
| C110 | `Verif.Xfn.C110_twice` | Classical.choice, Quot.sound, propext |
| C110 | `Verif.Xfn.C110_values` | Classical.choice, Quot.sound, propext |
| C110 | `Verif.Xfn.C110_none` | Classical.choice, Quot.sound, propext |
| C111 | `Verif.Slice.Stale.C111_iterators` | Classical.choice, Quot.sound, propext |
| C111 | `Verif.Slice.Stale.C111_belongs_iff` | Classical.choice, Quot.sound, propext |
| C111 | `Verif.Slice.Stale.C111_attached` | Classical.choice, Quot.sound, propext |
| C111 | `Verif.Slice.Stale.C111_detached` | Classical.choice, Quot.sound, propext |
| C112 | `Verif.CustomMap.Panics.C112_custom` | Quot.sound |
| C112 | `Verif.CustomMap.Panics.C112_custom_agrees` | Quot.sound, propext |
| C112 | `Verif.ArrayMap.Panics.C112_arrayMap_partial` | Classical.choice, Quot.sound, propext |
| C112 | `Verif.ArrayMap.Panics.C112_arrayMap_agrees` | Classical.choice, Quot.sound, propext |
| C112 | `Verif.ArrayMap.Panics.C112_set` | Quot.sound, propext |
| C112 | `Verif.ArrayMap.Panics.C112_get` | Quot.sound, propext |
| C112 | `Verif.ArrayMap.Panics.C112_false` | Quot.sound, propext |
| C112 | `Verif.ArrayMap.Panics.C112_exact` | Classical.choice, Quot.sound, propext |
| C113 | `Verif.Stream.Exact.C113_to_the_end` | Classical.choice, Quot.sound, propext |
| C113 | `Verif.Stream.Exact.C113_to_the_limit` | Classical.choice, Quot.sound, propext |
| C113 | `Verif.Stream.Exact.C113_forever` | Classical.choice, Quot.sound, propext |
| C113 | `Verif.Stream.Exact.C113_returns_iff` | Classical.choice, Quot.sound, propext |
| C113 | `Verif.Stream.Exact.C113_lazy` | Classical.choice, Quot.sound, propext |
| C113 | `Verif.Stream.Exact.C113_lazy_forever` | Classical.choice, Quot.sound, propext |
| C113 | `Verif.Stream.Exact.C113_peek` | Quot.sound, propext |
| C113 | `Verif.Stream.Exact.loud_steady` | none |
| C113 | `Verif.Stream.Exact.loud_behaves` | none |
| C114 | `Verif.CustomMap.C114_every_history` | Classical.choice, Quot.sound, propext |
| C114 | `Verif.CustomMap.C114_determined` | Classical.choice, Quot.sound, propext |
| C114 | `Verif.CustomMap.C114_found` | Classical.choice, Quot.sound, propext |
| C115 | `Verif.Sort.C115_parametric` | Classical.choice, Quot.sound, propext |
| C115 | `Verif.Sort.C115_map` | Classical.choice, Quot.sound, propext |
| C115 | `Verif.Sort.C115_rearrangement` | Classical.choice, Quot.sound, propext |
| C115 | `Verif.Sort.C115_panics` | Classical.choice, Quot.sound, propext |
| C116 | `Verif.Sort.C116_sort_determined` | Classical.choice, Quot.sound, propext |
| C116 | `Verif.Sort.C116_sort_stable_agree` | Classical.choice, Quot.sound, propext |
| C116 | `Verif.Sort.C116_stable_determined` | Classical.choice, Quot.sound, propext |
| C116 | `Verif.Sort.C116_stable_twice` | Classical.choice, Quot.sound, propext |
| C117 | `Verif.RingMem.C117_shared` | Classical.choice, Quot.sound, propext |
| C117 | `Verif.RingMem.C117_after_copy` | Classical.choice, Quot.sound, propext |
| C117 | `Verif.RingMem.C117_apart` | Classical.choice, Quot.sound, propext |
| C117 | `Verif.RingMem.C117_copies` | Classical.choice, Quot.sound, propext |
| C117 | `Verif.RingMem.C117_adding` | Classical.choice, Quot.sound, propext |
| C117 | `Verif.RingMem.C117_independent_false` | propext |
| C118 | `Verif.Sort.C118_distinct_partial` | Classical.choice, Quot.sound, propext |
| C118 | `Verif.Sort.C118_cycles` | Classical.choice, Quot.sound, propext |
| C118 | `Verif.Sort.C118_period` | Classical.choice, Quot.sound, propext |
| C118 | `Verif.Sort.C118_short` | Classical.choice, Quot.sound, propext |
| C118 | `Verif.Sort.C118_false` | Classical.choice, Quot.sound, propext |
| C119 | `Verif.Stream.Mem.C119_counters` | Classical.choice, Quot.sound, propext |
| C119 | `Verif.Stream.Mem.C119_counters_slice` | Classical.choice, Quot.sound, propext |
| C119 | `Verif.Stream.Mem.C119_chain` | Quot.sound, propext |
| C119 | `Verif.Stream.Mem.C119_source` | Classical.choice, Quot.sound, propext |
| C119 | `Verif.Stream.Mem.C119_slice` | Classical.choice, Quot.sound, propext |
| C120 | `Verif.Stream.Mem.C120_reads` | Classical.choice, Quot.sound, propext |
| C120 | `Verif.Stream.Mem.C120_intact` | Classical.choice, Quot.sound, propext |
| C120 | `Verif.Stream.Mem.C120_in_place` | Classical.choice, Quot.sound, propext |
| C120 | `Verif.Stream.Mem.C120_append` | Classical.choice, Quot.sound, propext |
| C121 | `Verif.Stream.Mem.C121_new` | Classical.choice, Quot.sound, propext |
| C121 | `Verif.Stream.Mem.C121_map` | Classical.choice, Quot.sound, propext |
| C121 | `Verif.Stream.Mem.C121_compose` | Classical.choice, Quot.sound, propext |
| C121 | `Verif.Stream.Mem.C121_replace` | Classical.choice, Quot.sound, propext |
| C121 | `Verif.Stream.Mem.C121_terminal` | Classical.choice, Quot.sound, propext |
| C122 | `Verif.Sharded.C122_sharded_partial` | Classical.choice, Quot.sound, propext |
| C122 | `Verif.Sharded.C122_clear_unordered` | Quot.sound, propext |
| C122 | `Verif.Sharded.C122_sharded_exact` | Classical.choice, Quot.sound, propext |
| C122 | `Verif.Xsync.C122_synchronized` | Classical.choice, Quot.sound, propext |
| C122 | `Verif.Xsync.Rand.C122_generator` | Classical.choice, Quot.sound, propext |
| C122 | `Verif.Xsync.Rand.C122_master` | Classical.choice, Quot.sound, propext |
| C122 | `Verif.AtomicValue.C122_published` | Classical.choice, Quot.sound, propext |
| C123 | `Verif.Sort.C123_by_place` | Classical.choice, Quot.sound, propext |
| C123 | `Verif.Sort.C123_safe` | Classical.choice, Quot.sound, propext |
| C123 | `Verif.Sort.C123_keys` | Classical.choice, Quot.sound, propext |
| C123 | `Verif.Sort.C123_determined` | Classical.choice, Quot.sound, propext |
| C123 | `Verif.Sort.C123_agrees` | propext |
| C123 | `Verif.Sort.C123_not_sorted` | Classical.choice, Quot.sound, propext |
| C124 | `Verif.Stream.Reenter.C124_returns` | Classical.choice, Quot.sound, propext |
| C124 | `Verif.Stream.Reenter.C124_panic_ended` | Classical.choice, Quot.sound, propext |
| C124 | `Verif.Stream.Reenter.C124_no_panic_partial` | Classical.choice, Quot.sound, propext |
| C124 | `Verif.Stream.Reenter.C124_counts_partial` | Classical.choice, Quot.sound, propext |
| C124 | `Verif.Stream.Reenter.C124_counts_reads` | Classical.choice, Quot.sound, propext |
| C124 | `Verif.Stream.Reenter.C124_lookahead_panics` | Quot.sound, propext |
| C124 | `Verif.Stream.Reenter.C124_filter_panics` | Quot.sound, propext |
| C124 | `Verif.Stream.Reenter.C124_limit_exceeded` | Quot.sound, propext |
| C124 | `Verif.Stream.Reenter.C124_next_eq` | Classical.choice, Quot.sound, propext |
| C124 | `Verif.Stream.Reenter.C124_agrees` | Classical.choice, Quot.sound, propext |
| C124 | `Verif.Stream.Reenter.C124_build` | Classical.choice, Quot.sound, propext |
| C124 | `Verif.Stream.Reenter.C124_limit_kept` | propext |
| C125 | `Verif.Sort.C125_at_least` | Classical.choice, Quot.sound, propext |
| C125 | `Verif.Sort.C125_few` | Classical.choice, Quot.sound, propext |
| C125 | `Verif.Sort.C125_worst` | Classical.choice, Quot.sound, propext |
| C126 | `Verif.Conc.Client.atomic` | Classical.choice, Quot.sound, propext |
| C126 | `Verif.AtomicPtr.C126_ptr` | Classical.choice, Quot.sound, propext |
| C126 | `Verif.AtomicPtr.C126_put_once` | Classical.choice, Quot.sound, propext |
| C126 | `Verif.AtomicValue.C126_value` | Classical.choice, Quot.sound, propext |
| C126 | `Verif.AtomicValue.C126_value_cas_only` | Classical.choice, Quot.sound, propext |
| C126 | `Verif.AtomicValue.C126_updates` | Classical.choice, Quot.sound, propext |
| C126 | `Verif.AtomicValue.C126_tickets` | Classical.choice, Quot.sound, propext |
| C126 | `Verif.Sharded.C126_sharded` | Classical.choice, Quot.sound, propext |
| C126 | `Verif.Sharded.C126_lock` | Classical.choice, Quot.sound, propext |
| C126 | `Verif.Xsync.C126_sync` | Classical.choice, Quot.sound, propext |
| C127 | `Verif.Conc.linearizable_local` | Classical.choice, Quot.sound, propext |
| C127 | `Verif.Conc.Family.linearizable` | Classical.choice, Quot.sound, propext |
| C127 | `Verif.Together.C127_linearizable` | Classical.choice, Quot.sound, propext |
| C127 | `Verif.Together.C127_atomic` | Classical.choice, Quot.sound, propext |
| C127 | `Verif.Together.C127_publish` | Classical.choice, Quot.sound, propext |
| C128 | `Verif.Conc.Locking.returns` | Classical.choice, Quot.sound, propext |
| C128 | `Verif.AtomicValue.C128_value` | Classical.choice, Quot.sound, propext |
| C128 | `Verif.AtomicPtr.C128_ptr` | Classical.choice, Quot.sound, propext |
| C128 | `Verif.Sharded.C128_sharded` | Classical.choice, Quot.sound, propext |
| C128 | `Verif.Sharded.Props.C128_weak_false` | Classical.choice, Quot.sound, propext |
| C128 | `Verif.Xsync.C128_sync` | Classical.choice, Quot.sound, propext |
| C128 | `Verif.Conc.Family.returns` | Classical.choice, Quot.sound, propext |
| C128 | `Verif.Together.C128_together` | Classical.choice, Quot.sound, propext |
| C129 | `Verif.Rand.C129_words` | Classical.choice, Quot.sound, propext |
| C129 | `Verif.Rand.C129_bounded` | Classical.choice, Quot.sound, propext |
| C129 | `Verif.Rand.C129_index` | Classical.choice, Quot.sound, propext |
| C129 | `Verif.Rand.C129_perm` | Classical.choice, Quot.sound, propext |
| C129 | `Verif.Rand.C129_shuffle` | Classical.choice, Quot.sound, propext |
| C129 | `Verif.Rand.C129_slice` | Classical.choice, Quot.sound, propext |
| C129 | `Verif.Rand.C129_panics` | Classical.choice, Quot.sound, propext |
| C129 | `Verif.Rand.C129_read` | Classical.choice, Quot.sound, propext |
| C129 | `Verif.Rand.C129_secrand` | Classical.choice, Quot.sound, propext |
| C129 | `Verif.Rand.C129_sources` | Classical.choice, Quot.sound, propext |
| C130 | `Verif.Algo.C130_step` | Classical.choice, Quot.sound, propext |
| C130 | `Verif.Algo.C130_enumeration` | Classical.choice, Quot.sound, propext |
| C131 | `Verif.Sort.Written.C131_as_written` | Classical.choice, Quot.sound, propext |
| C131 | `Verif.Sort.Written.C131_ends` | Classical.choice, Quot.sound, propext |
| C131 | `Verif.Sort.Written.C131_counted` | Classical.choice, Quot.sound, propext |
| C131 | `Verif.Sort.Written.C131_sorts` | Classical.choice, Quot.sound, propext |
| C131 | `Verif.Sort.Written.C131_ascending` | Classical.choice, Quot.sound, propext |
| C132 | `Verif.Ring.Inserters.C132_writes` | Classical.choice, Quot.sound, propext |
| C132 | `Verif.Ring.Inserters.C132_fill` | Classical.choice, Quot.sound, propext |
| C132 | `Verif.Ring.Inserters.C132_methods` | Quot.sound, propext |
| C133 | `Verif.Sort.Written.C133_ends` | Classical.choice, Quot.sound, propext |
| C133 | `Verif.Sort.Written.C133_calls` | Classical.choice, Quot.sound, propext |
| C134 | `Verif.Rand.C134_float64` | Classical.choice, Quot.sound, propext |
| C134 | `Verif.Rand.C134_float32` | Classical.choice, Quot.sound, propext |
| C134 | `Verif.Rand.C134_panics` | Classical.choice, Quot.sound, propext |
| C134 | `Verif.Rand.C134_share` | Classical.choice, Quot.sound, propext |
| C135 | `Verif.Slice.Inserters.C135_writes` | Classical.choice, Quot.sound, propext |
| C135 | `Verif.Slice.Inserters.C135_two` | Classical.choice, Quot.sound, propext |
| C135 | `Verif.Slice.Inserters.C135_full` | Classical.choice, Quot.sound, propext |
| C135 | `Verif.Slice.Inserters.C135_fill` | Classical.choice, Quot.sound, propext |
| C135 | `Verif.Slice.Inserters.laid_one` | Quot.sound, propext |
| C135 | `Verif.Slice.Inserters.laid_two` | Classical.choice, Quot.sound, propext |
| C135 | `Verif.Slice.Inserters.write_good` | Classical.choice, Quot.sound, propext |
| C135 | `Verif.Slice.Inserters.write_stale` | propext |
| C135 | `Verif.Slice.Inserters.C135_beside` | propext |
| C136 | `Verif.Algo.Dummies.C136_dummy` | Quot.sound, propext |
| C136 | `Verif.Algo.Dummies.C136_walk` | none |
| C137 | `Verif.Slice.Views.C137_views` | Classical.choice, Quot.sound, propext |
| C137 | `Verif.Slice.Views.C137_sub` | Quot.sound, propext |
| C137 | `Verif.Slice.Views.C137_append` | Classical.choice, Quot.sound, propext |
| C137 | `Verif.Slice.Views.C137_deleted` | Classical.choice, Quot.sound, propext |
| C137 | `Verif.Slice.Views.C137_access` | Classical.choice, Quot.sound, propext |
| C138 | `Verif.Xfn.Kept.C138_current` | Quot.sound, propext |
| C138 | `Verif.Xfn.Kept.C138_replaced` | Classical.choice, Quot.sound, propext |
| C138 | `Verif.Xfn.Kept.C138_copied` | Classical.choice, Quot.sound, propext |
| C138 | `Verif.Xfn.Kept.C138_values` | Quot.sound, propext |
| C138 | `Verif.Xfn.Kept.C138_bytes` | Classical.choice, Quot.sound, propext |
| C138 | `Verif.Xfn.Kept.C138_bound` | Classical.choice, Quot.sound, propext |
| C138 | `Verif.Xfn.Kept.C138_goes_on` | Classical.choice, Quot.sound, propext |
| C139 | `Verif.Algo.Unsorted.C139_lower_said` | Classical.choice, Quot.sound, propext |
| C139 | `Verif.Algo.Unsorted.C139_upper_said` | Classical.choice, Quot.sound, propext |
| C139 | `Verif.Algo.Unsorted.C139_lowerBound` | Classical.choice, Quot.sound, propext |
| C139 | `Verif.Algo.Unsorted.C139_upperBound` | Classical.choice, Quot.sound, propext |
| C139 | `Verif.Algo.Unsorted.C139_only` | Quot.sound, propext |
| C140 | `Verif.Algo.Raced.C140_searches` | Classical.choice, Quot.sound, propext |
| C140 | `Verif.Algo.Raced.C140_writers` | Classical.choice, Quot.sound, propext |
| C141 | `Verif.Secrand.Gen.C141_seed32` | Quot.sound, propext |
| C141 | `Verif.Secrand.Gen.C141_words` | Classical.choice, Quot.sound, propext |
| C141 | `Verif.Secrand.Gen.C141_raw` | Classical.choice, Quot.sound, propext |
| C141 | `Verif.Secrand.Gen.C141_same` | Classical.choice, Quot.sound, propext |
| C141 | `Verif.Secrand.Gen.C141_differ` | Classical.choice, Quot.sound, propext |
| C141 | `Verif.Secrand.Gen.C141_nonce` | Classical.choice, Quot.sound, propext |
| C141 | `Verif.Xhash.Gen.C141_uint64` | Quot.sound, propext |
| C141 | `Verif.Xhash.Gen.C141_seed` | Quot.sound, propext |
| C141 | `Verif.Xhash.Gen.C141_incr64` | Classical.choice, Quot.sound, propext |
| C141 | `Verif.Xhash.Gen.C141_bytes` | Quot.sound, propext |
| C142 | `Verif.Sharded.Ascending.C142_no_deadlock` | Classical.choice, Quot.sound, propext |
| C142 | `Verif.Sharded.Ascending.C142_methods` | Quot.sound, propext |
| C142 | `Verif.Sharded.Ascending.C142_user` | Quot.sound, propext |
| C142 | `Verif.Sharded.Ascending.C142_marshal` | Classical.choice, Quot.sound, propext |
| C143 | `Verif.Sort.OrderedRaced.C143_returns` | Classical.choice, Quot.sound, propext |
| C143 | `Verif.Sort.OrderedRaced.C143_comparisons` | Classical.choice, Quot.sound, propext |
| C143 | `Verif.Sort.OrderedRaced.C143_alone` | Classical.choice, Quot.sound, propext |
| C143 | `Verif.Sort.OrderedRaced.C143_loses` | Classical.choice, Quot.sound, propext |
| C144 | `Verif.Sharded.Layout.C144_layout` | Quot.sound, propext |
| C144 | `Verif.Sharded.Layout.C144_offset` | none |
| C144 | `Verif.Sharded.Layout.C144_of` | none |
| C144 | `Verif.Sharded.Layout.C144_exact` | Classical.choice, Quot.sound, propext |
| C145 | `Verif.Xhash.Xxh3.C145_seed` | Quot.sound, propext |
| C145 | `Verif.Xhash.Xxh3.C145_uint64` | Quot.sound, propext |
| C145 | `Verif.Xhash.Xxh3.C145_every` | Quot.sound, propext |
| C145 | `Verif.Xhash.Xxh3.C145_no_collision` | Quot.sound, propext |
| C145 | `Verif.Xhash.Xxh3.C145_incremental` | Quot.sound, propext |
| C146 | `Verif.AtomicValue.Tests.C146_swap` | Classical.choice, Quot.sound, propext |
| C146 | `Verif.AtomicValue.Tests.C146_swap_test` | Classical.choice, Quot.sound, propext |
| C146 | `Verif.AtomicValue.Tests.C146_load_test` | Quot.sound, propext |
| C146 | `Verif.AtomicValue.Tests.C146_cas_test` | Classical.choice, Quot.sound, propext |
| C146 | `Verif.AtomicValue.Tests.C146_cas_ends` | Classical.choice, Quot.sound, propext |
| C147 | `Verif.Conformance.RingLarge.C147_large` | Classical.choice, Quot.sound, propext |
| C147 | `Verif.Conformance.RingLarge.C147_contents` | Classical.choice, Quot.sound, propext |
| C147 | `Verif.Conformance.RingLarge.C147_passes_iff` | Classical.choice, Quot.sound, propext |
| C148 | `Verif.Src.Ring.C148_text` | Classical.choice, Quot.sound, propext |
| C148 | `Verif.Src.Ring.C148_call` | Classical.choice, Quot.sound, propext |
| C148 | `Verif.Src.Ring.C148_run` | Classical.choice, Quot.sound, propext |
| C148 | `Verif.Src.Ring.C148_spec` | Classical.choice, Quot.sound, propext |
| C148 | `Verif.Src.Ring.append_src` | Classical.choice, Quot.sound, propext |
| C148 | `Verif.Src.Ring.push_src` | Classical.choice, Quot.sound, propext |
| C148 | `Verif.Src.Ring.prepend_src` | Classical.choice, Quot.sound, propext |
| C148 | `Verif.Src.Ring.deleteFirst_src` | Classical.choice, Quot.sound, propext |
| C148 | `Verif.Src.Ring.deleteLast_src` | Classical.choice, Quot.sound, propext |
| C148 | `Verif.Src.Ring.pop_src` | Classical.choice, Quot.sound, propext |
| C148 | `Verif.Src.Ring.checkGrowth_src` | Classical.choice, Quot.sound, propext |
| C148 | `Verif.Src.Ring.checkShrink_src` | Classical.choice, Quot.sound, propext |
| C148 | `Verif.Src.Ring.set_src` | Classical.choice, Quot.sound, propext |
| C148 | `Verif.Src.Ring.at_src` | Classical.choice, Quot.sound, propext |
| C148 | `Verif.Src.Ring.atRef_src` | Classical.choice, Quot.sound, propext |
| C148 | `Verif.Src.Ring.first_src` | Classical.choice, Quot.sound, propext |
| C148 | `Verif.Src.Ring.last_src` | Classical.choice, Quot.sound, propext |
| C148 | `Verif.Src.Ring.len_src` | Classical.choice, Quot.sound, propext |
| C148 | `Verif.Src.Ring.cap_src` | Classical.choice, Quot.sound, propext |
| C148 | `Verif.Src.Ring.empty_src` | Classical.choice, Quot.sound, propext |
| C148 | `Verif.Src.Ring.toSlice_src` | Classical.choice, Quot.sound, propext |
| C148 | `Verif.Src.Ring.toSlice_src_nil` | Classical.choice, Quot.sound, propext |
| C148 | `Verif.Src.Ring.toSlice_src_any` | Classical.choice, Quot.sound, propext |
| C148 | `Verif.Src.Ring.toSlice_src_empty` | Classical.choice, Quot.sound, propext |
| C148 | `Verif.Src.Ring.new_src` | Classical.choice, Quot.sound, propext |
| C148 | `Verif.Src.Ring.newLen_src` | Classical.choice, Quot.sound, propext |
| C148 | `Verif.Src.Ring.newLenCap_src` | Classical.choice, Quot.sound, propext |
| C148 | `Verif.Src.Ring.of_src` | Classical.choice, Quot.sound, propext |
| C148 | `Verif.Src.Ring.ofSlice_src` | Classical.choice, Quot.sound, propext |
| C148 | `Verif.Src.Ring.copy_of_src` | Classical.choice, Quot.sound, propext |
| C149 | `Verif.Src.Sort.C149_text` | Classical.choice, Quot.sound, propext |
| C149 | `Verif.Src.Sort.C149_sort` | Classical.choice, Quot.sound, propext |
| C149 | `Verif.Src.Sort.C149_stable` | Classical.choice, Quot.sound, propext |
| C149 | `Verif.Src.Sort.C149_ordered` | Classical.choice, Quot.sound, propext |
| C149 | `Verif.Src.Sort.C149_any` | Classical.choice, Quot.sound, propext |
| C149 | `Verif.Src.Sort.C149_model` | Classical.choice, Quot.sound, propext |
| C149 | `Verif.Src.Sort.next_src` | Classical.choice, Quot.sound, propext |
| C149 | `Verif.Src.Sort.power_src` | Classical.choice, Quot.sound, propext |
| C149 | `Verif.Src.Sort.Any.insertionSort_src` | Classical.choice, Quot.sound, propext |
| C149 | `Verif.Src.Sort.Any.siftDown_src` | Classical.choice, Quot.sound, propext |
| C149 | `Verif.Src.Sort.Any.heapSort_src` | Classical.choice, Quot.sound, propext |
| C149 | `Verif.Src.Sort.Any.partition_src` | Classical.choice, Quot.sound, propext |
| C149 | `Verif.Src.Sort.Any.partitionEqual_src` | Classical.choice, Quot.sound, propext |
| C149 | `Verif.Src.Sort.Any.partialInsertionSort_src` | Classical.choice, Quot.sound, propext |
| C149 | `Verif.Src.Sort.Any.reverseRange_src` | Classical.choice, Quot.sound, propext |
| C149 | `Verif.Src.Sort.Any.swapRange_src` | Classical.choice, Quot.sound, propext |
| C149 | `Verif.Src.Sort.Any.rotate_src` | Classical.choice, Quot.sound, propext |
| C149 | `Verif.Src.Sort.Any.symMerge_src` | Classical.choice, Quot.sound, propext |
| C149 | `Verif.Src.Sort.Any.stable_src` | Classical.choice, Quot.sound, propext |
| C149 | `Verif.Src.Sort.Any.order2_src` | Classical.choice, Quot.sound, propext |
| C149 | `Verif.Src.Sort.Any.median_src` | Classical.choice, Quot.sound, propext |
| C149 | `Verif.Src.Sort.Any.medianAdjacent_src` | Classical.choice, Quot.sound, propext |
| C149 | `Verif.Src.Sort.Any.choosePivot_src` | Classical.choice, Quot.sound, propext |
| C149 | `Verif.Src.Sort.Any.breakPatterns_src` | Classical.choice, Quot.sound, propext |
| C149 | `Verif.Src.Sort.Any.pdqsort_src` | Classical.choice, Quot.sound, propext |
| C149 | `Verif.Src.Sort.Any.sort_src` | Classical.choice, Quot.sound, propext |
| C149 | `Verif.Src.Sort.Any.stableSort_src` | Classical.choice, Quot.sound, propext |
| C149 | `Verif.Src.Sort.Ordered.insertionSort_src` | Classical.choice, Quot.sound, propext |
| C149 | `Verif.Src.Sort.Ordered.siftDown_src` | Classical.choice, Quot.sound, propext |
| C149 | `Verif.Src.Sort.Ordered.heapSort_src` | Classical.choice, Quot.sound, propext |
| C149 | `Verif.Src.Sort.Ordered.partition_src` | Classical.choice, Quot.sound, propext |
| C149 | `Verif.Src.Sort.Ordered.partitionEqual_src` | Classical.choice, Quot.sound, propext |
| C149 | `Verif.Src.Sort.Ordered.partialInsertionSort_src` | Classical.choice, Quot.sound, propext |
| C149 | `Verif.Src.Sort.Ordered.reverseRange_src` | Classical.choice, Quot.sound, propext |
| C149 | `Verif.Src.Sort.Ordered.swapRange_src` | Classical.choice, Quot.sound, propext |
| C149 | `Verif.Src.Sort.Ordered.rotate_src` | Classical.choice, Quot.sound, propext |
| C149 | `Verif.Src.Sort.Ordered.symMerge_src` | Classical.choice, Quot.sound, propext |
| C149 | `Verif.Src.Sort.Ordered.stable_src` | Classical.choice, Quot.sound, propext |
| C149 | `Verif.Src.Sort.Ordered.order2_src` | Classical.choice, Quot.sound, propext |
| C149 | `Verif.Src.Sort.Ordered.median_src` | Classical.choice, Quot.sound, propext |
| C149 | `Verif.Src.Sort.Ordered.medianAdjacent_src` | Classical.choice, Quot.sound, propext |
| C149 | `Verif.Src.Sort.Ordered.choosePivot_src` | Classical.choice, Quot.sound, propext |
| C149 | `Verif.Src.Sort.Ordered.breakPatterns_src` | Classical.choice, Quot.sound, propext |
| C149 | `Verif.Src.Sort.Ordered.pdqsort_src` | Classical.choice, Quot.sound, propext |
| C149 | `Verif.Src.Sort.Ordered.sort_src` | Classical.choice, Quot.sound, propext |
| C149 | `Verif.Src.Sort.Ordered.stableSort_src` | Classical.choice, Quot.sound, propext |
| C150 | `Verif.Src.Algo.C150_text` | Classical.choice, Quot.sound, propext |
| C150 | `Verif.Src.Algo.C150_lowerBound` | Classical.choice, Quot.sound, propext |
| C150 | `Verif.Src.Algo.C150_upperBound` | Classical.choice, Quot.sound, propext |
| C150 | `Verif.Src.Algo.C150_bound_invalid` | Classical.choice, Quot.sound, propext |
| C150 | `Verif.Src.Algo.C150_isSortedUntil` | Classical.choice, Quot.sound, propext |
| C150 | `Verif.Src.Algo.C150_isSorted` | Classical.choice, Quot.sound, propext |
| C150 | `Verif.Src.Algo.C150_nextPermutation` | Classical.choice, Quot.sound, propext |
| C150 | `Verif.Src.Algo.C150_reverse` | Classical.choice, Quot.sound, propext |
| C150 | `Verif.Src.Algo.C150_swap` | Classical.choice, Quot.sound, propext |
| C150 | `Verif.Src.Algo.C150_fillN` | Classical.choice, Quot.sound, propext |
| C150 | `Verif.Src.Algo.distance_src` | Classical.choice, Quot.sound, propext |
| C150 | `Verif.Src.Algo.upper_src` | Classical.choice, Quot.sound, propext |
| C150 | `Verif.Src.Algo.upperAny_src` | Classical.choice, Quot.sound, propext |
| C150 | `Verif.Src.Algo.upperOrd_src` | Classical.choice, Quot.sound, propext |
| C150 | `Verif.Src.Algo.lower_src` | Classical.choice, Quot.sound, propext |
| C150 | `Verif.Src.Algo.lowerAny_src` | Classical.choice, Quot.sound, propext |
| C150 | `Verif.Src.Algo.lowerOrd_src` | Classical.choice, Quot.sound, propext |
| C150 | `Verif.Src.Algo.reverseRandom_src` | Classical.choice, Quot.sound, propext |
| C150 | `Verif.Src.Algo.base_src` | Classical.choice, Quot.sound, propext |
| C150 | `Verif.Src.Algo.nextPermutation_src` | Classical.choice, Quot.sound, propext |
| C150 | `Verif.Src.Algo.nextPermutationAny_src` | Classical.choice, Quot.sound, propext |
| C150 | `Verif.Src.Algo.nextPermutationOrd_src` | Classical.choice, Quot.sound, propext |
| C150 | `Verif.Src.Algo.makeRange_src` | Classical.choice, Quot.sound, propext |
| C150 | `Verif.Src.Algo.reverseRange_src` | Classical.choice, Quot.sound, propext |
| C150 | `Verif.Src.Algo.subRange_src` | Classical.choice, Quot.sound, propext |
| C150 | `Verif.Src.Algo.rangeDistance_src` | Classical.choice, Quot.sound, propext |
| C150 | `Verif.Src.Algo.sortedUntil_src` | Classical.choice, Quot.sound, propext |
| C150 | `Verif.Src.Algo.sorted_src` | Classical.choice, Quot.sound, propext |
| C150 | `Verif.Src.Algo.sortedUntilAny_src` | Classical.choice, Quot.sound, propext |
| C150 | `Verif.Src.Algo.sortedUntilOrd_src` | Classical.choice, Quot.sound, propext |
| C150 | `Verif.Src.Algo.sortedAny_src` | Classical.choice, Quot.sound, propext |
| C150 | `Verif.Src.Algo.sortedOrd_src` | Classical.choice, Quot.sound, propext |
| C150 | `Verif.Src.Algo.swap_src` | Classical.choice, Quot.sound, propext |
| C150 | `Verif.Src.Algo.fill_src` | Classical.choice, Quot.sound, propext |
| C150 | `Verif.Src.Algo.reverse_src` | Classical.choice, Quot.sound, propext |
| C150 | `Verif.Src.Algo.slice_impl` | Classical.choice, Quot.sound, propext |
| C150 | `Verif.Src.Algo.rev_impl` | Classical.choice, Quot.sound, propext |
| C150 | `Verif.Src.Algo.Walks.impl` | Classical.choice, Quot.sound, propext |
| C150 | `Verif.Src.Algo.forward_iff` | propext |
| C150 | `Verif.Src.Algo.backward_iff` | propext |
| C151 | `Verif.Src.Algo.C151_call` | Classical.choice, Quot.sound, propext |
| C151 | `Verif.Src.Algo.C151_history` | Classical.choice, Quot.sound, propext |
| C151 | `Verif.Src.Algo.C151_ranges` | Classical.choice, Quot.sound, propext |
| C151 | `Verif.Src.Algo.C151_new` | Classical.choice, Quot.sound, propext |
| C151 | `Verif.Src.Algo.C151_newLen` | Classical.choice, Quot.sound, propext |
| C151 | `Verif.Src.Algo.C151_newLenCap` | Classical.choice, Quot.sound, propext |
| C151 | `Verif.Src.Algo.C151_of` | Classical.choice, Quot.sound, propext |
| C151 | `Verif.Src.Algo.C151_ofSlice` | Classical.choice, Quot.sound, propext |
| C151 | `Verif.Src.Algo.C151_copy` | Classical.choice, Quot.sound, propext |
| C151 | `Verif.Src.Algo.C151_reversed` | Classical.choice, Quot.sound, propext |
| C151 | `Verif.Src.Algo.C151_sub` | Classical.choice, Quot.sound, propext |
| C151 | `Verif.Src.Algo.C151_slice` | Classical.choice, Quot.sound, propext |
| C151 | `Verif.Src.Algo.C151_cap` | Classical.choice, Quot.sound, propext |
| C151 | `Verif.Src.Algo.C151_reverseSubRange` | Classical.choice, Quot.sound, propext |
| C151 | `Verif.Src.Algo.C151_insert` | Classical.choice, Quot.sound, propext |
| C151 | `Verif.Src.Algo.delete_src` | Classical.choice, Quot.sound, propext |
| C151 | `Verif.Src.Algo.deleteLast_src` | Classical.choice, Quot.sound, propext |
| C151 | `Verif.Src.Algo.unorderedDelete_src` | Classical.choice, Quot.sound, propext |
| C151 | `Verif.Src.Algo.insert_src` | Classical.choice, Quot.sound, propext |
| C152 | `Verif.Src.XMap.C152_text` | Classical.choice, Quot.sound, propext |
| C152 | `Verif.Src.XMap.C152_arrayMap_call` | Classical.choice, Quot.sound, propext |
| C152 | `Verif.Src.XMap.C152_arrayMap_history` | Classical.choice, Quot.sound, propext |
| C152 | `Verif.Src.XMap.C152_arrayMap_text` | Classical.choice, Quot.sound, propext |
| C152 | `Verif.Src.XMap.C152_arrayMap_list` | Classical.choice, Quot.sound, propext |
| C152 | `Verif.Src.XMap.C152_arrayMap_panics` | Classical.choice, Quot.sound, propext |
| C152 | `Verif.Src.XMap.C152_arrayMap_wrong` | Classical.choice, Quot.sound, propext |
| C152 | `Verif.Src.XMap.C152_custom_call` | Classical.choice, Quot.sound, propext |
| C152 | `Verif.Src.XMap.C152_custom_history` | Classical.choice, Quot.sound, propext |
| C152 | `Verif.Src.XMap.C152_custom_text` | Classical.choice, Quot.sound, propext |
| C152 | `Verif.Src.XMap.C152_custom_loses` | Classical.choice, Quot.sound, propext |
| C152 | `Verif.Src.XMap.C152_set_call` | Classical.choice, Quot.sound, propext |
| C152 | `Verif.Src.XMap.C152_set_history` | Classical.choice, Quot.sound, propext |
| C152 | `Verif.Src.XMap.C152_set_text` | Classical.choice, Quot.sound, propext |
| C152 | `Verif.Src.XMap.C152_enumerate` | Classical.choice, Quot.sound, propext |
| C152 | `Verif.Src.XMap.C152_clear` | Classical.choice, Quot.sound, propext |
| C153 | `Verif.Src.Hash.C153_text` | Classical.choice, Quot.sound, propext |
| C153 | `Verif.Src.Hash.C153_xxh3` | Classical.choice, Quot.sound, propext |
| C153 | `Verif.Src.Hash.C153_injective` | Classical.choice, Quot.sound, propext |
| C153 | `Verif.Src.Hash.C153_calls` | Classical.choice, Quot.sound, propext |
| C153 | `Verif.Src.Hash.C153_toUint64` | Classical.choice, Quot.sound, propext |
| C153 | `Verif.Src.Hash.C153_putUint64` | Classical.choice, Quot.sound, propext |
| C153 | `Verif.Src.Hash.C153_sum` | Classical.choice, Quot.sound, propext |
| C153 | `Verif.Src.Hash.C153_write` | Classical.choice, Quot.sound, propext |
| C153 | `Verif.Src.Hash.C153_history` | Classical.choice, Quot.sound, propext |
| C153 | `Verif.Src.Hash.C153_chain` | Classical.choice, Quot.sound, propext |
| C153 | `Verif.Src.Hash.C153_one_word` | Classical.choice, Quot.sound, propext |
| C153 | `Verif.Src.Hash.C153_short` | Classical.choice, Quot.sound, propext |
| C153 | `Verif.Src.Hash.C153_beyond` | Classical.choice, Quot.sound, propext |
| C154 | `Verif.CustomMap.Overflow.C154_exact` | Classical.choice, Quot.sound, propext |
| C154 | `Verif.CustomMap.Overflow.C154_spec` | propext |
| C154 | `Verif.CustomMap.Overflow.C154_loses` | Classical.choice, Quot.sound, propext |
| C154 | `Verif.Src.XMap.C154_text_call` | Classical.choice, Quot.sound, propext |
| C154 | `Verif.Src.XMap.C154_text_history` | Classical.choice, Quot.sound, propext |
| C154 | `Verif.Src.XMap.C154_text` | Classical.choice, Quot.sound, propext |
| C154 | `Verif.Src.XMap.C154_text_loses` | Classical.choice, Quot.sound, propext |
| C155 | `Verif.Src.Shard.C155_text` | Classical.choice, Quot.sound, propext |
| C155 | `Verif.Src.Shard.C155_text_history` | Classical.choice, Quot.sound, propext |
| C155 | `Verif.Src.Shard.C155_text_all` | Classical.choice, Quot.sound, propext |
| C156 | `Verif.Src.IterRest.C156_text` | Classical.choice, Quot.sound, propext |
| C156 | `Verif.Src.IterRest.C156_ConstReverse` | Classical.choice, Quot.sound, propext |
| C156 | `Verif.Src.IterRest.C156_Reverse` | Classical.choice, Quot.sound, propext |
| C156 | `Verif.Src.IterRest.C156_ConstReverseRandom` | Classical.choice, Quot.sound, propext |
| C156 | `Verif.Src.IterRest.C156_Dummy` | Classical.choice, Quot.sound, propext |
| C156 | `Verif.Src.IterRest.C156_Append` | Classical.choice, Quot.sound, propext |
| C156 | `Verif.Src.IterRest.C156_Prepend` | Classical.choice, Quot.sound, propext |
| C156 | `Verif.Src.IterRest.C156_Insert` | Classical.choice, Quot.sound, propext |
| C157 | `Verif.Src.Fns.C157_text` | Classical.choice, Quot.sound, propext |
| C157 | `Verif.Src.Fns.C157_elems` | Classical.choice, Quot.sound, propext |
| C157 | `Verif.Src.Fns.C157_lessFloat` | Classical.choice, Quot.sound, propext |
| C157 | `Verif.Src.Fns.C157_ints` | Classical.choice, Quot.sound, propext |
| C157 | `Verif.Src.Fns.C157_arith` | Classical.choice, Quot.sound, propext |
| C158 | `Verif.Src.Rng.C158_text` | Classical.choice, Quot.sound, propext |
| C158 | `Verif.Src.Rng.C158_erase` | Classical.choice, Quot.sound, propext |
| C158 | `Verif.Src.Rng.C158_copyAndErase` | Classical.choice, Quot.sound, propext |
| C158 | `Verif.Src.Rng.C158_uint64` | Classical.choice, Quot.sound, propext |
| C158 | `Verif.Src.Rng.C158_uint64_slow` | Classical.choice, Quot.sound, propext |

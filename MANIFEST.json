{"claims": [
{"property": "C01", "status": "proved", "theorems": ["Verif.Simple8b.C01_roundtrip", "Verif.Simple8b.C01_buffer_bound", "Verif.Simple8b.C01_injective", "Verif.Simple8b.C01_too_large_diverges"], "note": ""},
{"property": "C02", "status": "proved", "theorems": ["Verif.PostingLists.C02_roundtrip", "Verif.PostingLists.C02_empty_block_throws"], "note": "Round trip for every posting list; an empty list makes the writer throw (C02_empty_block_throws)."},
{"property": "C03", "status": "proved", "theorems": ["Verif.RdfEscaping.C03_roundtrip", "Verif.RdfEscaping.C03_injective", "Verif.RdfEscaping.C03_line_safe"], "note": ""},
{"property": "C04", "status": "partial", "theorems": ["Verif.PrefixCompression.C04_expand_compress", "Verif.PrefixCompression.C04_longest_prefix", "Verif.PrefixCompression.C04_file_roundtrip_partial", "Verif.PrefixCompression.C04_newline_in_prefix_corrupts"], "note": "In memory for all words and prefixes; through the file only for prefixes without newline (otherwise false: C04_newline_in_prefix_corrupts)."},
{"property": "C05", "status": "proved", "theorems": ["Verif.CompactStringVector.C05_roundtrip", "Verif.CompactStringVector.C05_too_much_data", "Verif.CompactStringVector.C05_many_empty_lists_ub"], "note": "Within the size limits the code checks; C05_many_empty_lists_ub shows an unchecked limit."},
{"property": "C06", "status": "proved", "theorems": ["Verif.Allocator.C06_limit", "Verif.Allocator.C06_balance", "Verif.Allocator.C06_refused_iff", "Verif.Allocator.C06_all_returned", "Verif.Allocator.C06_bad_alloc_leaks"], "note": "The exact balance needs that no heap allocation fails after the counter was decreased; otherwise the bytes are lost (C06_bad_alloc_leaks). The limit itself holds unconditionally."},
{"property": "C07", "status": "proved", "theorems": ["Verif.Cache.C07_limits", "Verif.Cache.C07_pinned_stays", "Verif.Cache.C07_made_pinned_stays", "Verif.Cache.C07_made_pinned_found", "Verif.Cache.C07_no_needless_eviction", "Verif.Cache.C07_evicts_lowest"], "note": ""},
{"property": "C08", "status": "proved", "theorems": ["Verif.Cache.C08_refines", "Verif.Cache.C08_lookup_provenance", "Verif.Cache.C08_removed_not_found", "Verif.Cache.C08_lookup_total", "Verif.Cache.C08_insert_total"], "note": ""},
{"property": "C09", "status": "proved", "theorems": ["Verif.ConcurrentCache.C09_at_most_one_computing", "Verif.ConcurrentCache.C09_cached_not_recomputed", "Verif.ConcurrentCache.C09_computing_not_cached", "Verif.ConcurrentCache.C09_results", "Verif.ConcurrentCache.C09_C10_waiters"], "note": "Transition system for computeOnceImpl/ResultInProgress over the cache model; all interleavings, any number of requests."},
{"property": "C10", "status": "proved", "theorems": ["Verif.ConcurrentCache.C09_C10_waiters", "Verif.ConcurrentCache.C10_key_not_stored", "Verif.ConcurrentCache.C10_start_total", "Verif.ConcurrentCache.C10_new_computation", "Verif.ConcurrentCache.C10_idle_key_computed", "Verif.ConcurrentCache.C10_progress", "Verif.ConcurrentCache.C10_rank", "Verif.ConcurrentCache.C10_checks_hold", "Verif.ConcurrentCache.C10_pinning_spoils_other_request"], "note": "Waiters of a failed computation get an exception, the key is not stored, a later request computes again, nobody is stuck, the AD_CHECKs never fire. C10_pinning_spoils_other_request records a surprising behaviour."},
{"property": "C11", "status": "partial", "theorems": ["Verif.PQ.C11_tree", "Verif.PQ.C11_tree_drain", "Verif.PQ.C11_heap_partial", "Verif.PQ.C11_heap_drain_partial", "Verif.PQ.C11_heap_pop_total", "Verif.PQ.C11_heap_double_pop", "Verif.PQ.C11_heap_double_pop_wrong", "Verif.PQ.C11_heap_after_clear", "Verif.PQ.C11_heap_after_clear_wrong"], "note": "Tree-based queue: all histories. Heap-based queue: histories in which a handle never returns to an earlier score and is not used after clear(); both restrictions are necessary (counterexamples proved)."},
{"property": "C12", "status": "proved", "theorems": ["Verif.Join.C12_merge_join", "Verif.Join.C12_zipper", "Verif.Join.C12_result_sorted", "Verif.Join.C12_width"], "note": "All sorted tables, any sizes/widths/columns: the merge join equals the specification join list, terminates, reads in range."},
{"property": "C13", "status": "partial", "theorems": ["Verif.Join.C13_right_larger", "Verif.Join.C13_gallopRight", "Verif.Join.C13_left_larger_partial", "Verif.Join.C13_left_larger_keys_present_partial", "Verif.Join.C13_left_larger_ub"], "note": "RightLarger proved in full. LeftLarger: correct unless std::lower_bound is called on an inverted range, which does happen (C13_left_larger_ub, a defect of the code); correct for right tables with distinct keys that all occur on the left."},
{"property": "C14", "status": "partial", "theorems": ["Verif.MultiJoin.C14_multi_column_join", "Verif.MultiJoin.C14_result_sorted", "Verif.MultiJoin.C14_labels_partial", "Verif.MultiJoin.C14_labels_violated", "Verif.MultiJoin.C14_wide_tables_undefined"], "note": "Rows and order proved in full; the reported column labels are wrong for some hash orders (negation proved), right when iterated in column order."},
{"property": "C15", "status": "proved", "theorems": ["Verif.MultiJoin.C15_optional_join", "Verif.MultiJoin.C15_left_join", "Verif.MultiJoin.C15_rows", "Verif.MultiJoin.C15_inner", "Verif.MultiJoin.C15_left_rows_kept", "Verif.MultiJoin.C15_labels"], "note": "All four combinations of optional sides; rows, order, column labels."},
{"property": "C16", "status": "proved", "theorems": ["Verif.Minus.C16_minus"], "note": "Exact list equality with the specification."},
{"property": "C17", "status": "partial", "theorems": ["Verif.Union.C17_union", "Verif.Union.C17_types_partial", "Verif.Union.C17_types_violated", "Verif.Union.C17_hidden_left_column", "Verif.Union.C17_no_variable"], "note": "Rows, columns and values of UNION proved for all tables and variable maps; the reported result types are right for columns the left side feeds (C17_types_partial) and wrong for columns only the right side feeds (C17_types_violated). Needs at most 100000 and at least one variable and no hidden left columns (witnesses given)."},
{"property": "C18", "status": "proved", "theorems": ["Verif.Modifiers.C18_distinct", "Verif.Modifiers.C18_planned", "Verif.Modifiers.C18_planned_total", "Verif.Modifiers.C18_planned_sorted"], "note": "Engine::distinct and the planner's getDistinctRow, for all tables and all truthful declared orders."},
{"property": "C19", "status": "proved", "theorems": ["Verif.Modifiers.C19_orderBy", "Verif.Modifiers.C19_comparable", "Verif.Modifiers.C19_total", "Verif.Modifiers.C19_sort", "Verif.Modifiers.C19_sort_total", "Verif.Modifiers.C19_planned", "Verif.Modifiers.C19_planned_total"], "note": "OrderBy, Sort and the planner's getOrderByRow; std::sort by its contract."},
{"property": "C20", "status": "partial", "theorems": ["Verif.Modifiers.C20_json", "Verif.Modifiers.C20_separated_partial", "Verif.Modifiers.C20_violated", "Verif.Modifiers.C20_negative"], "note": "JSON export proved; TSV/CSV export proved with LIMIT or without OFFSET; with OFFSET and without LIMIT TSV/CSV exports nothing (C20_violated). A negative number of rows asked for is no restriction (C20_negative)."},
{"property": "C21", "status": "partial", "theorems": ["Verif.GroupBy.C21_groupBy_partial", "Verif.GroupBy.C21_groups_partition", "Verif.GroupBy.C21_columns", "Verif.GroupBy.C21_computeResult_partial", "Verif.GroupBy.C21_keys", "Verif.GroupBy.C21_planned_partial", "Verif.GroupBy.C21_planned_total", "Verif.GroupBy.C21_noGroupBy_violated", "Verif.GroupBy.C21_noGroupBy_reads_behind", "Verif.GroupBy.C21_emptyInput_violated", "Verif.GroupBy.C21_avgDistinct_violated", "Verif.GroupBy.C21_concatDistinct_violated", "Verif.GroupBy.C21_concatDistinct_violated'", "Verif.GroupBy.C21_first_violated", "Verif.GroupBy.C21_duplicate_name_violated"], "note": "doGroupBy/processGroup/computeResult and the planner's getGroupByRow, for at least one grouping column, and all aggregates except AVG DISTINCT and GROUP_CONCAT DISTINCT. Missing because the code violates them: no GROUP BY (COUNT is n+1, other aggregates read behind the table, empty input gives no row), AVG DISTINCT, GROUP_CONCAT DISTINCT, type of FIRST/LAST, duplicate names; see the _violated theorems. Floats are abstract."},
{"property": "C22", "status": "partial", "theorems": ["Verif.Filter.C22_fixed_value", "Verif.Filter.C22_columns", "Verif.Filter.C22_verbatim_partial", "Verif.Filter.C22_verbatim_violated", "Verif.Filter.C22_float_partial", "Verif.Filter.C22_float_eq_violated", "Verif.Filter.C22_float_sorted_violated", "Verif.Filter.C22_local_vocab_partial", "Verif.Filter.C22_local_vocab_violated", "Verif.Filter.C22_kb_eq", "Verif.Filter.C22_kb_ne_partial", "Verif.Filter.C22_kb_ne_sorted_violated", "Verif.Filter.C22_unbound_violated", "Verif.Filter.C22_prefix"], "note": "Exact for fixed values, two columns, equality of words, prefix conditions. Violated for != on sorted word columns, float equality, float columns sorted by bytes, counts compared with negative or fractional numbers, duplicate built strings, and unbound values (each proved). LANG_MATCHES and REGEX are not modelled."},
{"property": "C23", "status": "partial", "theorems": ["Verif.Filter.C23_lt_ge", "Verif.Filter.C23_le_gt_partial", "Verif.Filter.C23_le_gt_violated"], "note": "Exact for < and >= with every constant, for <= and > if some word is not greater than the constant; otherwise violated (proved in general)."},
{"property": "C24", "status": "partial", "theorems": ["Verif.TransitivePath.C24_path", "Verif.TransitivePath.C24_bounded_partial", "Verif.TransitivePath.C24_bounded_violated", "Verif.TransitivePath.C24_both_fixed_violated", "Verif.TransitivePath.C24_zero_throws", "Verif.TransitivePath.C24_leftBound_partial", "Verif.TransitivePath.C24_leftBound_pairs", "Verif.TransitivePath.C24_leftBound_violated", "Verif.TransitivePath.C24_rightBound_partial", "Verif.TransitivePath.C24_rightBound_pairs", "Verif.TransitivePath.C24_rightBound_violated"], "note": "Unbounded paths: exactly reachability, each pair once (full). Length-bounded paths: sound; complete for graphs whose walks between two nodes have equal length and for single edges; violated otherwise (witness). Both sides fixed: violated (always empty). Bound sides: exact when adjacent rows with equal join value are equal, node pairs always right; violated otherwise (witness)."},
{"property": "C25", "status": "partial", "theorems": ["Verif.IdTable.C25_run_partial", "Verif.IdTable.C25_get", "Verif.IdTable.C25_eq", "Verif.IdTable.C25_erase_violated", "Verif.IdTable.C25_eq_violated", "Verif.IdTable.C25_self_append", "Verif.IdTable.C25_moved_from"], "note": "Refinement to a list of rows for every number of columns and every sequence of operations with arguments in range; the only exception is erase with end row 0 on a table without columns (violated, witness)."},
{"property": "C26", "status": "partial", "theorems": ["Verif.Permutation.scan_two_keys_partial", "Verif.Permutation.scan_two_keys_exact", "Verif.Permutation.scan_two_keys_violated", "Verif.Permutation.scans_after_reload"], "note": "createIndex and the two-key scans (block index, lower_bound, file reads) for all triple lists; correct for all key pairs that occur and for all absent keys in relations without block index; exact characterisation of when an absent second key reads past the end of a block, with a concrete violating index"},
{"property": "C27", "status": "proved", "theorems": ["Verif.Permutation.permutations_scan", "Verif.Permutation.scans_after_reload", "Verif.Permutation.isScan_unique", "Verif.Permutation.empty_input_no_index"], "note": "all six permutations, all non-empty triple lists with repetitions up to 2^40-1 triples, also after writing and reloading the meta data; for an empty list no index is written (empty_input_no_index)"},
{"property": "C28", "status": "proved", "theorems": ["Verif.MetaData.fields_independent", "Verif.MetaData.fields_beyond_max", "Verif.MetaData.derived_positions"], "note": "Refinement to a record of independent fields for counts up to the documented maximum; beyond it the count is kept modulo 2^40."},
{"property": "C29", "status": "partial", "theorems": ["Verif.MetaData.relation_meta_roundtrip", "Verif.MetaData.block_meta_roundtrip", "Verif.MetaData.sparse_meta_reload", "Verif.MetaData.dense_meta_reload", "Verif.MetaData.wrong_kind_throws", "Verif.TextMetaData.text_meta_roundtrip", "Verif.TextMetaData.text_lookup_reload_partial", "Verif.TextMetaData.text_reload_violated", "Verif.TextMetaData.text_reload_violated_concrete"], "note": "Relation, block and permutation meta data: full round trip. Text meta data: round trip of blocks and counts; lookups after reload are right unless the first entity id follows the last word id (violated there), undefined for entity ids beyond the last."},
{"property": "C30", "status": "partial", "theorems": ["Verif.ExternalVocabulary.build_get", "Verif.ExternalVocabulary.buildFromText_get", "Verif.ExternalVocabulary.lookup_exact", "Verif.ExternalVocabulary.lookup_partial", "Verif.ExternalVocabulary.lookup_violated"], "note": "Proved exactly: lookups are right except for absent words smaller than all words when the size is 1, 4-5, 10-13, 22-29, ...; there the code reads outside (lookup_exact, lookup_violated)."},
{"property": "C31", "status": "partial", "theorems": ["Verif.VocabularyMerger.merge_correct", "Verif.VocabularyMerger.merge_total", "Verif.VocabularyMerger.ids_ordered_partial", "Verif.VocabularyMerger.unique_violated", "Verif.VocabularyMerger.empty_violated"], "note": "Proved for every execution: every stored triple gets ids of its words, ids are consecutive, sorted, shown as the right words, language bounds exact; an external word has one id per partial vocabulary in which it occurs (so the uniqueness claim fails, unique_violated); without shared external words ids and words correspond and ids are ordered."},
{"property": "C32", "status": "partial", "theorems": ["Verif.Patterns.C32_stored", "Verif.Patterns.C32_patterns_partial", "Verif.Patterns.C32_lost", "Verif.Patterns.C32_statistics", "Verif.Patterns.C32_total", "Verif.Patterns.C32_limit_zero_ub", "Verif.Patterns.C32_violated"], "note": "Proved for data with at most as many different predicate lists as patterns are allowed (QLever's limit: 2^32-3), with the exact behaviour for every limit. Beyond the limit the code loses predicates (C32_lost, C32_violated)."},
{"property": "C33", "status": "proved", "theorems": ["Verif.Patterns.C33_counts", "Verif.Patterns.C33_counts_all"], "note": "For inputs in which equal subjects are adjacent (the planner sorts), any pattern assignment that describes the data and any hash iteration order."},
{"property": "C34", "status": "partial", "theorems": ["Verif.Patterns.C34_subjects", "Verif.Patterns.C34_predicates", "Verif.Patterns.C34_full", "Verif.Patterns.C34_subquery_partial", "Verif.Patterns.C34_subquery_stops", "Verif.Patterns.C34_subquery_violated"], "note": "Subjects of a predicate, predicates of a subject and all pairs are proved. For subqueries proved if all ids are subjects; otherwise the code stops early (C34_subquery_stops, C34_subquery_violated)."},
{"property": "C35", "status": "partial", "theorems": ["Verif.FTS.C35_filterByRange", "Verif.FTS.C35_intersect", "Verif.FTS.C35_intersect_reused", "Verif.FTS.C35_intersect_reused_violated", "Verif.FTS.C35_intersectTwo", "Verif.FTS.C35_intersectTwo_distinct", "Verif.FTS.C35_two_words_violated", "Verif.FTS.C35_two_words_ub", "Verif.FTS.C35_two_words_partial"], "note": "Proved for the intersection functions on all sorted lists. The two-word query passes the scores of the second list twice, so its scores are wrong and it may read behind the end; result vectors are not cleared if a list is empty."},
{"property": "C36", "status": "partial", "theorems": ["Verif.FTS.C36_contexts_partial", "Verif.FTS.C36_entities_partial", "Verif.FTS.C36_single_violated", "Verif.FTS.C36_overflow_violated", "Verif.FTS.C36_words", "Verif.FTS.C36_query_entities"], "note": "Proved for every k >= 2 and every k sorted lists whose scores do not overflow. False for k = 1 (only the first context) and when the 16-bit score overflows."},
{"property": "C37", "status": "partial", "theorems": ["Verif.FTS.C37_partial", "Verif.FTS.C37_one", "Verif.FTS.C37_sizes", "Verif.FTS.C37_rows_of_entity", "Verif.FTS.C37_zero_violated", "Verif.FTS.C37_repeated_violated", "Verif.FTS.C37_overflow_violated", "Verif.FTS.C37_topKByScores", "Verif.FTS.C37_partialSort_exists", "Verif.FTS.C37_rows_exact", "Verif.FTS.C37_rows_violated"], "note": "Proved for every k >= 1 and every posting list without repeated postings. False for k = 0, for repeated postings, for scores of 65536 contexts, and for the (unused) version for rows."},
{"property": "C38", "status": "partial", "theorems": ["Verif.Values.C38_exact", "Verif.Values.C38_partial", "Verif.Values.C38_undef_violated", "Verif.Values.C38_refused"], "note": "As documented for rows without UNDEF among the remaining variables; violated for other rows."},
{"property": "C39", "status": "partial", "theorems": ["Verif.Bind.C39_rows", "Verif.Bind.C39_rename", "Verif.Bind.C39_word", "Verif.Bind.C39_int_partial", "Verif.Bind.C39_int_violated", "Verif.Bind.C39_binary_partial", "Verif.Bind.C39_binary_unbound_violated"], "note": "Rows and columns unchanged for all expressions; the value for renaming, words, integers from 0 to 2^63-1 and binary operations on bound cells; violated for negative and large integers and for unbound integer cells."},
{"property": "C40", "status": "partial", "theorems": ["Verif.CacheKey.C40_key_determines", "Verif.CacheKey.C40_same_operation", "Verif.CacheKey.C40_partial", "Verif.CacheKey.C40_distinct_violated", "Verif.CacheKey.C40_union_violated", "Verif.CacheKey.C40_filter_violated", "Verif.CacheKey.C40_minus_violated", "Verif.CacheKey.C40_optional_violated", "Verif.CacheKey.C40_hasPredicate_violated", "Verif.CacheKey.C40_groupBy_violated", "Verif.CacheKey.C40_path_violated", "Verif.CacheKey.C40_regex_violated", "Verif.CacheKey.C40_violated"], "note": "Proved for plans of scans, joins, sorts, has-predicate scans and transitive paths with free or fixed ends; violated for DISTINCT, UNION, FILTER, MINUS, OPTIONAL, has-predicate on a subquery, GROUP BY with DISTINCT aggregates, bound paths and regex."},
{"property": "C41", "status": "proved", "theorems": ["Verif.Pipeline.C41_results", "Verif.Pipeline.C41_source", "Verif.Pipeline.C41_stateless", "Verif.Pipeline.C41_batch", "Verif.Pipeline.C41_no_deadlock", "Verif.Pipeline.C41_terminates", "Verif.Pipeline.C41_runs_exist", "Verif.Pipeline.C41_batch_size_zero", "Verif.Pipeline.C41_parser_lines", "Verif.Pipeline.C41_parser_end", "Verif.Pipeline.C41_partials", "Verif.Pipeline.C41_whole_file", "Verif.Pipeline.C41_partials_exist", "Verif.Pipeline.C41_parse_buffer"], "note": "For every schedule, with progress and termination; also the rounds of index building on one parser and ParallelParseBuffer."},
{"property": "C42", "status": "partial", "theorems": ["Verif.C42.run_total", "Verif.C42.run_succeeds", "Verif.C42.close_and_reopen", "Verif.C42.crash_partial", "Verif.C42.crash_in_create", "Verif.C42.crash_accident", "Verif.C42.crash_in_fill", "Verif.C42.push_fails_half", "Verif.C42.push_fails_page", "Verif.C42.push_own_undefined"], "note": "Persistence is proved for all histories, elements up to half a page and files below 2^63 bytes; crash recovery except for files of whole pages that end with the magic number and for the creation from a range, where the claim is false."},
{"property": "C43", "status": "partial", "theorems": ["Verif.C43.buffered_is_plain_partial", "Verif.C43.large_elements"], "note": "Proved for every threshold and history with elements up to half a page; false for larger elements."},
{"property": "C44", "status": "partial", "theorems": ["Verif.Http.C44_decode", "Verif.Http.C44_decode_total", "Verif.Http.C44_roundtrip", "Verif.Http.C44_request_partial", "Verif.Http.C44_duplicate", "Verif.Http.C44_no_parameters", "Verif.Http.C44_encode_amp", "Verif.Http.C44_query", "Verif.Http.C44_http_violated", "Verif.Http.C44_flag_violated"], "note": "Decoding is proved for all strings; request lines are proved for well-formed parameters and lines without the letters HTTP before the version, with refusal of duplicates and of lines without parameters. Violated with these letters and for parameters without an equals sign."},
{"property": "C45", "status": "partial", "theorems": ["Verif.C45.bytes_weights", "Verif.C45.encodes", "Verif.C45.order_partial", "Verif.C45.equal_partial", "Verif.C45.order_long", "Verif.C45.integer_text", "Verif.C45.plus_text", "Verif.C45.collation_violated", "Verif.C45.digits_violated", "Verif.C45.leading_violated", "Verif.C45.zero_violated", "Verif.C45.point_violated", "Verif.C45.exponent_violated", "Verif.C45.type_violated", "Verif.C45.shown_partial", "Verif.C45.shown_value", "Verif.C45.large_violated", "Verif.C45.power_violated", "Verif.C45.float_partial", "Verif.C45.float_log_violated", "Verif.C45.float_digits_violated", "Verif.C45.literal_word", "Verif.C45.literal_partial", "Verif.C45.integer_partial", "Verif.C45.type_name_violated", "Verif.C45.other_types_violated", "Verif.C45.filter_partial", "Verif.C45.ascii_numbers", "Verif.C45.constant_violated", "Verif.C45.constant_recognised", "Verif.C45.constant_integer", "Verif.C45.constant_exponent_violated"], "note": "Order, equality and shown form proved for numbers without superfluous zeros and with at most 30 digits, for orders of characters with + before -; literals and filters of one type; violated otherwise, with a witness each."},
{"property": "C46", "status": "proved", "theorems": ["Verif.ConcurrentCache.C46_cached_complete", "Verif.ConcurrentCache.C46_returned_complete", "Verif.ConcurrentCache.C46_requester_gets_exception"], "note": "The computing function of Operation::getResult inside the concurrent cache."},
{"property": "C47", "status": "partial", "theorems": ["Verif.C47.parse_partial", "Verif.C47.meaning", "Verif.C47.parse_meaning_partial", "Verif.C47.variable_kept", "Verif.C47.null_sound", "Verif.C47.null_partial", "Verif.C47.bound_violated", "Verif.C47.null_violated", "Verif.C47.accepts_violated", "Verif.C47.rejected"], "note": "Structure and meaning of the parsed tree proved for every path in which *n follows IRIs only; flags sound for all, exact if the sides of alternatives agree; violated otherwise, with witnesses."},
{"property": "C48", "status": "proved", "theorems": ["Verif.StringUtils.C48_split", "Verif.StringUtils.C48_join", "Verif.StringUtils.C48_split_join", "Verif.StringUtils.C48_splitWs", "Verif.StringUtils.C48_splitAny", "Verif.StringUtils.C48_words_unique", "Verif.StringUtils.C48_splitAny_violated", "Verif.StringUtils.C48_lstrip", "Verif.StringUtils.C48_rstrip", "Verif.StringUtils.C48_strip", "Verif.StringUtils.C48_literalEnd", "Verif.StringUtils.C48_closingBracket", "Verif.StringUtils.C48_closingBracket_throws"], "note": "Also words, strip and matching brackets; splitAny needs separators in the ASCII range."},
{"property": "C49", "status": "partial", "theorems": ["Verif.C49.prefix_range_partial", "Verif.C49.empty_prefix", "Verif.C49.textual_prefix", "Verif.C49.sorted_of_total", "Verif.C49.sorted_of_quarternary", "Verif.C49.last_255_violated", "Verif.C49.empty_key_violated", "Verif.C49.closing_quote_violated", "Verif.C49.case_violated", "Verif.C49.external_violated", "Verif.C49.full_text_partial", "Verif.C49.full_text_violated"], "note": "Proved for all vocabularies and prefixes with a non-empty primary sort key that does not end with byte 255, in terms of primary sort keys; violated otherwise, for prefixes with closing quotes, and for words on disk."},
{"property": "C50", "status": "partial", "theorems": ["Verif.Minus.Filter.C50_filter", "Verif.Minus.Filter.C50_two_column_join_partial", "Verif.Minus.Filter.C50_violated", "Verif.Minus.Filter.C50_other_cases_refused", "Verif.Minus.Filter.C50_two_column_join_left_partial"], "note": "Proved when the two-column relation has no duplicates; negation proved otherwise."},
{"property": "C51", "status": "partial", "theorems": ["Verif.C51.excerpt", "Verif.C51.excerpt_partial", "Verif.C51.same_id", "Verif.C51.no_value", "Verif.C51.empty_violated", "Verif.C51.behind", "Verif.C51.behind_violated", "Verif.C51.decreasing_violated", "Verif.C51.no_tab"], "note": "Exact result for every valid documents file; the right text whenever the document exists and is not empty; otherwise the text of another document or an endless loop, with witnesses."},
{"property": "C52", "status": "partial", "theorems": ["Verif.RdfEscaping.C52_sound", "Verif.RdfEscaping.C52_literal_partial", "Verif.RdfEscaping.C52_long_literal_partial", "Verif.RdfEscaping.C52_iri_partial", "Verif.RdfEscaping.C52_trailing_numeric_escape_rejected", "Verif.RdfEscaping.C52_single_quote_ub", "Verif.RdfEscaping.C52_prefixed_name"], "note": "Literals and IRIs: proved when a numeric escape is not the last thing before the closing delimiter; the code rejects that case (C52_trailing_numeric_escape_rejected) and has undefined behaviour for a single quote character (C52_single_quote_ub)."},
{"property": "C53", "status": "proved", "theorems": ["Verif.ConcurrentCache.C53_pinned"], "note": "Any execution without clearAll: the value returned to a request that asked for pinning is pinned."},
{"property": "C54", "status": "partial", "theorems": ["Verif.SortedOn.C54_sort", "Verif.SortedOn.C54_orderBy_partial", "Verif.SortedOn.C54_orderBy_violated", "Verif.SortedOn.C54_sublist", "Verif.SortedOn.C54_minus", "Verif.SortedOn.C54_join", "Verif.SortedOn.C54_multiColumnJoin", "Verif.SortedOn.C54_optionalJoin", "Verif.GroupBy.C54_groupBy", "Verif.TransitivePath.C54_transitivePath", "Verif.TransitivePath.C54_transitivePath_left", "Verif.TransitivePath.C54_transitivePath_right"], "note": "Proved for Sort, Join, MultiColumnJoin, OptionalJoin, Minus, GroupBy, TransitivePath and operations that select rows; OrderBy only when no descending key precedes an ascending one (C54_orderBy_violated). Not covered: scans, TwoColumnJoin, full scan dummies."},
{"property": "C55", "status": "partial", "theorems": ["Verif.ResultTable.C55_distinct_partial", "Verif.ResultTable.C55_sort_partial", "Verif.ResultTable.C55_orderBy_partial", "Verif.ResultTable.C55_join_violated", "Verif.ResultTable.C55_minus_violated"], "note": "Distinct, Sort and OrderBy keep the generated strings; Join and Minus lose them (witnesses)."},
{"property": "C56", "status": "partial", "theorems": ["Verif.Modifiers.C56_having_partial", "Verif.Modifiers.C56_violated"], "note": "At most one condition; with several only the last is applied (C56_violated)."},
{"property": "C57", "status": "partial", "theorems": ["Verif.FTS.C57_variables", "Verif.FTS.C57_sizes_ub", "Verif.FTS.C57_filter_set", "Verif.FTS.C57_filter_map", "Verif.FTS.C57_variables_filter_map", "Verif.FTS.C57_variables_filter_set_exact", "Verif.FTS.C57_variables_filter_set_violated"], "note": "Proved without subquery, with a subquery for the only variable, and with a subquery of several columns. False with a subquery of one column and at least two variables: one variable's entity is lost and one cell is never written."},
{"property": "C58", "status": "partial", "theorems": ["Verif.C58.total_order", "Verif.C58.item_order", "Verif.C58.words_ok", "Verif.C58.find_internal", "Verif.C58.find_external_partial", "Verif.C58.shown_order", "Verif.C58.input_found_partial", "Verif.C58.mark_agrees", "Verif.C58.not_on_disk_violated", "Verif.C58.unnormalised_violated", "Verif.C58.text_found_partial", "Verif.C58.text_violated", "Verif.C58.text_equal_violated", "Verif.C58.disk_tagged", "Verif.C58.disk_untagged", "Verif.C58.disk_entity", "Verif.C58.disk_datatype_violated"], "note": "Words in memory: proved for every query word. Words on disk: present words. End to end with C31 unless a word on disk is in two partial vocabularies. Violated without words on disk, for constants that are not normalised, and for text words equal at the level QUARTERNARY."},
{"property": "C59", "status": "partial", "theorems": ["Verif.C59.parse_exact", "Verif.C59.parse_text_partial", "Verif.C59.parse_unchanged", "Verif.C59.parse_other", "Verif.C59.braces_violated", "Verif.C59.braces_escape_violated", "Verif.C59.backslash_violated", "Verif.C59.tagged_violated", "Verif.C59.prefix_filter_partial", "Verif.C59.prefix_filter_total", "Verif.C59.textual_kept", "Verif.C59.case_violated", "Verif.C59.disk_violated", "Verif.C59.regex_filter", "Verif.C59.unbound_violated", "Verif.C59.escape_violated", "Verif.C59.constant_partial", "Verif.C59.constant_iri", "Verif.C59.quote_violated", "Verif.C59.angle_violated", "Verif.C59.quote_filter_violated", "Verif.C59.equality_partial", "Verif.C59.tag_violated", "Verif.C59.less_partial", "Verif.C59.prefix_function_violated"], "note": "Proved in terms of primary (prefixes) and quarternary (comparisons) sort keys, for regular expressions that stand for a text, columns of words in memory, and constants without inner quotes; violated otherwise, with a witness each."},
{"property": "C60", "status": "partial", "theorems": ["Verif.C60.bytes_weights", "Verif.C60.encodes", "Verif.C60.order_partial", "Verif.C60.equal_partial", "Verif.C60.date_word", "Verif.C60.month_word", "Verif.C60.year_word", "Verif.C60.shown_partial", "Verif.C60.shown_key", "Verif.C60.same_partial", "Verif.C60.filter_partial", "Verif.C60.ascii_dates", "Verif.C60.suffix_ignored", "Verif.C60.hour_zone", "Verif.C60.zone_violated", "Verif.C60.fraction_violated", "Verif.C60.day_zone_violated", "Verif.C60.type_violated", "Verif.C60.year_violated", "Verif.C60.zero_violated", "Verif.C60.long_violated"], "note": "Order, equality, shown form and filters proved for dates without time zone and fraction, years of up to 18/19 digits; violated otherwise, with a witness each."},
{"property": "C61", "status": "partial", "theorems": ["Verif.C61.plan_partial", "Verif.C61.parse_plan_partial", "Verif.C61.refused", "Verif.C61.sample_supported", "Verif.C61.sequence_violated", "Verif.C61.undefined_violated", "Verif.C61.alternative_violated", "Verif.C61.eleven_violated"], "note": "Solutions of the pattern = connected pairs for every path whose sequences need one chunk and whose alternatives agree in being optional; violated otherwise (wrong results, undefined behaviour, missing empty path), with witnesses."},
{"property": "C62", "status": "partial", "theorems": ["Verif.Turtle.C62_documents_partial", "Verif.Turtle.C62_terminates", "Verif.Turtle.C62_anonymous_names", "Verif.Turtle.C62_comments_end_the_document", "Verif.Turtle.C62_base_ends_the_document", "Verif.Turtle.C62_sparql_prefix", "Verif.Turtle.C62_predicate_prefix_a", "Verif.Turtle.C62_object_prefix_true", "Verif.Turtle.C62_object_prefix_exponent", "Verif.Turtle.C62_decimal", "Verif.Turtle.C62_double", "Verif.Turtle.C62_bracketed_subject", "Verif.Turtle.C62_empty_prefix"], "note": "Every document in the supported fragment is read to its end with exactly its triples; termination without undefined behaviour for every text; violated (with witnesses) for several comments in a row, @base, PREFIX, prefixes taken for keywords or numbers, decimals, doubles, bracketed subjects, the empty prefix."},
{"property": "C63", "status": "partial", "theorems": ["Verif.Turtle.C63_blocks_partial", "Verif.Turtle.C63_single_block_partial", "Verif.Turtle.C63_statements_are_stable", "Verif.Turtle.C63_terminates", "Verif.Turtle.C63_mmap_first_statement", "Verif.Turtle.C63_mmap_empty_diverges", "Verif.Turtle.C63_redefined_prefix", "Verif.Turtle.C63_cut_after_dot", "Verif.Turtle.C63_rest_is_dropped", "Verif.Turtle.C63_comments_end_the_file"], "note": "Every consistent document of the fragment of C62 is returned completely for all cuts that do not follow an open dot; stability of statements and termination for all texts; violated (with witnesses) for redefined prefixes, cuts after a dot in a name, unreadable rests, and memory-mapped files."},
{"property": "C64", "status": "partial", "theorems": ["Verif.NTriples.C64_line_partial", "Verif.NTriples.C64_file_partial", "Verif.NTriples.C64_escaped_quotes", "Verif.NTriples.C64_no_gap", "Verif.NTriples.C64_unquoted", "Verif.NTriples.C64_refused", "Verif.NTriples.C64_refused_file", "Verif.NTriples.C64_tsv", "Verif.NTriples.C64_tsv_short", "Verif.NTriples.C64_tsv_file"], "note": "Lines whose object is followed by a blank and whose literals have no blank after an escaped quotation mark are read exactly; files line by line; the other lines are characterised: literals are cut at that blank, IRIs directly before the dot, comments and empty lines are refused, unquoted objects swallow the rest of the line, short tab-separated lines repeat a field."},
{"property": "C65", "status": "partial", "theorems": ["Verif.Planner.C65_plan_partial", "Verif.Planner.C65_tree_partial", "Verif.Planner.C65_found_partial", "Verif.Planner.C65_two_columns_violated", "Verif.Planner.C65_two_columns_not_implemented", "Verif.Planner.C65_two_columns_fails", "Verif.Planner.C65_filter_dropped", "Verif.Planner.C65_full_scan_fails", "Verif.Planner.C65_two_full_scans_fail", "Verif.Planner.C65_limits", "Verif.Planner.C65_returns_partial"], "note": "Proved for all plans whose joins are on one column, in particular for all tree-shaped groups whatever the costs and hash orders are; plans are found for connected tree-shaped groups, and they return unless fewer than all patterns have more than 1000 solutions together (C65_returns_partial). Violated for joins on two columns (sides ordered by the other side's columns), filters with unbound variables are dropped, two-column joins of wide tables and full scans fail."},
{"property": "C66", "status": "partial", "theorems": ["Verif.GroupPlanner.C66_group_partial", "Verif.GroupPlanner.C66_optional_first_violated", "Verif.GroupPlanner.C66_optional_disjoint_violated", "Verif.GroupPlanner.C66_minus_violated", "Verif.GroupPlanner.C66_bind_first_violated", "Verif.GroupPlanner.C66_filter_forgotten", "Verif.GroupPlanner.C66_filter_dropped", "Verif.GroupPlanner.C66_group_filter_forgotten"], "note": "Proved for groups with triples, OPTIONAL, MINUS, UNION, nested groups, BIND and filters where what is joined at a time is tree-shaped, shared variables are always bound, OPTIONAL shares a variable with what is before it, filters use variables of their own group, and a group that consists of one nested group has no filters in it. Violated: an OPTIONAL at the start is not optional, OPTIONAL and MINUS without common variables and BIND at the start fail, filters in an OPTIONAL on outside variables are dropped, filters of a group that starts with a filtered OPTIONAL or consists of one nested group with filters are forgotten."},
{"property": "C67", "status": "partial", "theorems": ["Verif.SparqlLexer.C67_tokens_partial", "Verif.SparqlLexer.C67_layout", "Verif.SparqlLexer.C67_keyword_first", "Verif.SparqlLexer.C67_names_cut", "Verif.SparqlLexer.C67_refused", "Verif.SparqlLexer.C67_long_string"], "note": "Proved for all sequences of the tokens that the lexer knows, where no prefix begins with a keyword. Violated: prefixes that begin with a keyword are cut in two; strings in single or triple quotes, numeric escapes, IRIs with brackets, `a`, `true`, `$x`, `&&`, blank nodes and exponents are refused or misread."},
{"property": "C68", "status": "partial", "theorems": ["Verif.SparqlParser.C68_parse_partial", "Verif.SparqlParser.C68_layout", "Verif.SparqlParser.C68_selected", "Verif.SparqlParser.C68_end_unchecked", "Verif.SparqlParser.C68_langMatches", "Verif.SparqlParser.C68_prefix_filter", "Verif.SparqlParser.C68_literals", "Verif.SparqlParser.C68_language_twice", "Verif.SparqlParser.C68_refused", "Verif.SparqlParser.C68_limits"], "note": "Proved for all queries of the language in Spec/SparqlQuery.lean (text to parsed query, through the lexer of C67 and the path parser of C47). Not covered: language filters and PREFIX filters. Violated: more words at the end and a missing bracket behind a subquery are accepted; langMatches is only understood without its closing parenthesis; the upper bound of PREFIX filters is made from the variable; literals with quotation marks, a backslash at the end, or two-part language tags; a language filter given twice; common SPARQL that is refused."},
{"property": "C69", "status": "partial", "theorems": ["Verif.Prefixes.C69_expand_partial", "Verif.Prefixes.C69_term_partial", "Verif.Prefixes.C69_text", "Verif.Prefixes.C69_colon_wrong", "Verif.Prefixes.C69_backslash_wrong", "Verif.Prefixes.C69_carets_wrong", "Verif.Prefixes.C69_hidden_wrong", "Verif.Prefixes.C69_words_wrong", "Verif.Prefixes.C69_start_wrong", "Verif.Prefixes.C69_undeclared_wrong", "Verif.Prefixes.C69_context_wrong"], "note": "Proved for all queries whose names stand in places that are visited and whose literals contain no colon, backslash or carets in the way (flag `easy` of the specification); with C68 from the text of the query. Violated: filters in OPTIONAL, MINUS and UNION and in HAVING keep their prefixes; types of literals that contain a colon; literals with carets or backslashes; words of text searches, strings of prefix filters and literals of in-context predicates are changed; undeclared prefixes are accepted."},
{"property": "C70", "status": "partial", "theorems": ["Verif.PatternTrick.C70_trick_partial", "Verif.PatternTrick.C70_answered", "Verif.PatternTrick.C70_exact_partial", "Verif.PatternTrick.C70_chosen", "Verif.PatternTrick.C70_constant_partial", "Verif.PatternTrick.C70_distinct_wrong", "Verif.PatternTrick.C70_no_count_ub", "Verif.PatternTrick.C70_no_subject_throws", "Verif.PatternTrick.C70_texts", "Verif.PatternTrick.C70_values_wrong", "Verif.PatternTrick.C70_optional_wrong"], "note": "Proved: the triple can be joined last, and the rows are the predicates with the number of different subjects (C70_trick_partial), which is the number of solutions if the rest has each subject at most once (C70_exact_partial), also for a constant subject (C70_constant_partial). Hypotheses: VALUES and MINUS of the query itself do not mention ?p, the subject occurs in another triple and no OPTIONAL, MINUS or BIND in between mentions it before, BIND does not assign the subject, filters have one left side, and there is a COUNT. Violated: COUNT(?s) counts subjects once (C70_distinct_wrong), VALUES for ?p ignored (C70_values_wrong), OPTIONAL with the subject behind the triple (C70_optional_wrong), undefined behaviour without COUNT (C70_no_count_ub), exception for a constant subject with other triples (C70_no_subject_throws). The plan for the rest is assumed to give its solutions (C65, C66)."},
{"property": "C71", "status": "partial", "theorems": ["Verif.Server.C71_dump", "Verif.Server.C71_response", "Verif.Server.C71_request_line", "Verif.Server.C71_closed", "Verif.Server.C71_blank_violated", "Verif.Server.C71_send_prefix", "Verif.Server.C71_send", "Verif.Server.C71_file", "Verif.Server.C71_confined", "Verif.Server.C71_method", "Verif.Server.C71_query_partial", "Verif.Server.C71_connection_partial", "Verif.Server.C71_export_partial", "Verif.Server.C71_stats", "Verif.Server.C71_error", "Verif.Server.C71_query_stops", "Verif.Server.C71_json_stops", "Verif.Server.C71_utf8_stops", "Verif.Server.C71_byte_stops", "Verif.Server.C71_get_stops", "Verif.Server.C71_name_ub", "Verif.Server.C71_post_violated", "Verif.Server.C71_clear", "Verif.Server.C71_alive_partial"], "note": "Proved: the request line does not depend on the chunks (C71_request_line), a well-formed request for a query gets the content that execution returns (C71_query_partial, C71_connection_partial, C71_export_partial, C71_stats), an error is a JSON text from which the exception and the query can be read (C71_error, C71_dump), files (C71_file, C71_confined, C71_method), sending (C71_send), and ASCII requests whose query is UTF-8 never stop the server (C71_alive_partial). Violated: requests that end the server with an uncaught exception (C71_query_stops with C71_utf8_stops, C71_byte_stops, C71_get_stops), undefined behaviour (C71_name_ub), an empty first line is never answered (C71_blank_violated), POST with GET in it gets 404 (C71_post_violated). Errors have status 200 and no type. Missing: request lines with the letters HTTP in the parameters, and bytes that are not ASCII."},
{"property": "C72", "status": "partial", "theorems": ["Verif.Export.C72_dump", "Verif.Export.C72_json_partial", "Verif.Export.C72_not_utf8", "Verif.Export.C72_separated_partial", "Verif.Export.C72_client_partial", "Verif.Export.C72_stops", "Verif.Export.C72_error", "Verif.Export.C72_separated_violated", "Verif.Export.C72_unbound_violated"], "note": "Proved: what dump(4) writes is read back as the same value exactly if all strings are UTF-8, otherwise it throws (C72_dump, induction over all JSON values); the rows, query, selection and size are read from the JSON response (C72_json_partial), also through HTTP (C72_client_partial, with C71), errors are JSON (C72_error); rows can be read from CSV/TSV if no value contains the separator or a newline (C72_separated_partial). Violated: a result with a value, or a query, that is not UTF-8 is not answered (C72_not_utf8), and such a query ends the server although it was executed (C72_stops); different tables give the same CSV text (C72_separated_violated); unbound values in columns of numbers are exported as 18446744073709551613, of texts as the empty text (C72_unbound_violated). Missing: those cases."},
{"property": "C73", "status": "partial", "theorems": ["Verif.TextIndex.C73_built", "Verif.TextIndex.C73_word", "Verif.TextIndex.C73_prefix_partial", "Verif.TextIndex.C73_entity_partial", "Verif.TextIndex.C73_entity_other", "Verif.TextIndex.C73_entity_unknown", "Verif.TextIndex.C73_entities_partial", "Verif.TextIndex.C73_entities_none", "Verif.TextIndex.C73_entities_entity_partial", "Verif.TextIndex.C73_entities_next", "Verif.TextIndex.C73_two_partial", "Verif.TextIndex.C73_statistics_partial", "Verif.TextIndex.C73_no_words", "Verif.TextIndex.C73_score_violated", "Verif.TextIndex.C73_prefix_violated", "Verif.TextIndex.C73_entity_lost_violated", "Verif.TextIndex.C73_entity_absent_violated", "Verif.TextIndex.C73_entities_violated", "Verif.TextIndex.C73_statistics_violated", "Verif.TextIndex.C73_several_partial", "Verif.TextIndex.C73_records_partial", "Verif.TextIndex.C73_prefix_unknown_violated", "Verif.TextIndex.C73_records_two_violated"], "note": "Proved for every text with a word, from the lines of the context file through the bytes of the index file to the answer: the index is built (C73_built); a word is found in exactly its records with its total score modulo 2^16 (C73_word); a prefix exactly if at most one word matches or no matching word has fewer than 4 code points, otherwise an exception (C73_prefix_partial); an entity with text that is not lost is found in exactly its records (C73_entity_partial), what happens for all others (C73_entity_other, C73_entity_unknown); co-occurring entities of a word, an entity, two words (C73_entities_partial, C73_entities_entity_partial, C73_two_partial); statistics (C73_statistics_partial). Violated: scores wrap at 65536 (C73_score_violated); prefixes of short words throw (C73_prefix_violated); an entity whose number is that of the vocabulary size (and the following ones) is not found or read behind the end (C73_entity_lost_violated); for an entity without text the postings of the next one are returned, or undefined behaviour (C73_entities_next, C73_entity_absent_violated); a word without co-occurring entity throws (C73_entities_none, C73_entities_violated); a text without words cannot be indexed (C73_no_words); the number of records is one too great without record 0 (C73_statistics_violated). Missing: those cases. For any number of words: exactly the entities of the records with all words, whichever term the entity list is taken from (C73_several_partial, with the score each one gets, which depends on that choice); three and more words: exactly the records with all words (C73_records_partial); a prefix without words makes a query with several terms fail, and records for two words read scores out of bounds."},
{"property": "C74", "status": "partial", "theorems": ["Verif.ContextFile.C74_line", "Verif.ContextFile.C74_file_partial", "Verif.ContextFile.C74_score_violated", "Verif.ContextFile.C74_search", "Verif.ContextFile.C74_malformed_violated", "Verif.ContextFile.C74_empty_line", "Verif.ContextFile.C74_unsorted_violated"], "note": "Proved: every line and every file is read as the entries it was written for, with the score modulo 2^16 (C74_line, C74_file_partial); from the text of the file to the records that a query finds (C74_search, with C73). Violated: scores wrap at 65536 (C74_score_violated); a line without tabulators is read as a word of record 0 or as an entity (C74_malformed_violated); a file that is not sorted is accepted and a record is found twice (C74_unsorted_violated); an empty line ends the build with an exception (C74_empty_line). Missing: those cases."},
{"property": "C75", "status": "partial", "theorems": ["Verif.TextIndex.C75_without_filter_partial", "Verif.TextIndex.C75_records_partial", "Verif.TextIndex.C75_with_filter_partial", "Verif.TextIndex.C75_filter_duplicates_violated", "Verif.TextIndex.C75_filter_unwritten_violated", "Verif.TextIndex.C75_spaces_violated", "Verif.TextIndex.C75_question_mark_violated"], "note": "Proved from the lines of the text to the rows: without filter (C75_without_filter_partial), with filter (C75_with_filter_partial), without entities (C75_records_partial). Violated: a filter with one column is treated as a set, so repeated rows are lost (C75_filter_duplicates_violated); with two variables a cell is never written (C75_filter_unwritten_violated); two spaces between words are undefined behaviour (C75_spaces_violated); a word with a question mark in front becomes a variable (C75_question_mark_violated). Missing: those cases, prefixes and entities as words, words that occur with no entity (C73), a limit of 0 (C37), exactly two words without a variable (C73_records_two_violated)."},
{"property": "C76", "status": "partial", "theorems": ["Verif.TriplePlan.C76_plans_partial", "Verif.TriplePlan.C76_full_scan", "Verif.TriplePlan.C76_loop_partial", "Verif.TriplePlan.C76_group_partial", "Verif.TriplePlan.C76_found_partial", "Verif.TriplePlan.C76_predicate_variable_violated", "Verif.TriplePlan.C76_repeated_violated", "Verif.TriplePlan.C76_refused", "Verif.TriplePlan.C76_absent_violated", "Verif.TriplePlan.C76_full_columns_violated", "Verif.TriplePlan.C76_returns_partial"], "note": "Proved from the bytes of the permutations to the answers: every plan for a pattern without a repeated variable (C76_plans_partial), scans of all triples through joins (C76_full_scan), ?x p ?x (C76_loop_partial), whole tree-shaped groups with filters (C76_group_partial), existence of a plan (C76_found_partial), which returns unless fewer than all patterns have more than 1000 solutions together (C76_returns_partial). Violated: ?x ?x c and c ?x ?x return nothing (C76_predicate_variable_violated), three variables of which two are equal have no plan (C76_repeated_violated), two constants without a match can be undefined behaviour (C76_absent_violated), scans of all triples declare no columns themselves (C76_full_columns_violated). Missing: those cases, ql:has-predicate (C25), groups of other shapes (C65), that joins of larger tables return (C13)."},
{"property": "C77", "status": "partial", "theorems": ["Verif.PrefixHeuristic.C77_tree", "Verif.PrefixHeuristic.C77_start", "Verif.PrefixHeuristic.C77_defined", "Verif.PrefixHeuristic.C77_candidates", "Verif.PrefixHeuristic.C77_gain", "Verif.PrefixHeuristic.C77_size", "Verif.PrefixHeuristic.C77_lossless_partial", "Verif.PrefixHeuristic.C77_newline_violated", "Verif.PrefixHeuristic.C77_order_violated", "Verif.PrefixHeuristic.C77_first_violated"], "note": "Proved: shape and counts of the tree for all orders of insertions (C77_tree), irrelevance of the start point (C77_start), no undefined behaviour for words in byte order, which the index builder uses (C77_defined), what the prefixes are (C77_candidates), that the reported gain is exact and every choice is the best (C77_gain), that compression saves at least that much (C77_size), and the round trip through the files for words without newline (C77_lossless_partial). Violated: words with newlines (C77_newline_violated, from a sorted vocabulary to a wrong word), words in the order of a collation, for which std::remove_if on unique pointers leaves null pointers (C77_order_violated), the first word is not unescaped (C77_first_violated)."},
{"property": "C78", "status": "partial", "theorems": ["Verif.Answers.C78_documents_partial", "Verif.Answers.C78_answers_partial", "Verif.Answers.C78_pattern_partial", "Verif.Answers.C78_input_triples", "Verif.Answers.C78_order", "Verif.Answers.C78_batches", "Verif.Answers.C78_batches_violated", "Verif.Answers.C78_internal_violated", "Verif.Answers.C78_tagged_predicate_violated", "Verif.Answers.C78_returns_partial"], "note": "Composition of C31, C58, C26/C27, C65 and C76. Proved: no triple is lost between the parser and the partial vocabularies (C78_batches); for all inputs meeting DocOk every execution of the index builder ends normally, and every table returned for a group of patterns in the shape of a tree shows exactly the solutions of the patterns in the stored triples, each once (C78_documents_partial, C78_answers_partial); plans for one pattern do return a table (C78_pattern_partial), and so do plans for connected groups unless fewer than all patterns have more than 1000 solutions together (C78_returns_partial); with constant predicates the stored triples can be replaced by the triples of the input (C78_input_triples); different ids show different terms, and ids are ordered as their terms: first those in memory, then those on disk, each by the collation (C78_order). Missing: typed literals (C45, C60), words on disk with several partial vocabularies (C31), absent constants kept on disk (C30), prefix compression (C04), what C76 excludes. Violated: a variable as predicate also matches the internal predicates of language tags (C78_internal_violated), a predicate kept on disk has an unusable language predicate (C78_tagged_predicate_violated), batch size 0 never ends (C78_batches_violated)."},
{"property": "C79", "status": "partial", "theorems": ["Verif.Response.C79_responses_partial", "Verif.Response.C79_clients_partial", "Verif.Response.C79_export_partial", "Verif.Response.C79_single_partial", "Verif.Response.filter_run", "Verif.Response.C79_answered_partial", "Verif.Response.small_of_length"], "note": "Composition of C18, C19, C22, C64, C78, C68, C69, C76, C65, C72 and C71. Proved: every response composed from an execution of a plan is read by the client as the solutions over the stored triples, with filters that compare two variables, DISTINCT, ORDER BY, LIMIT and OFFSET (C79_responses_partial); the same from the lines of a file of N-Triples to the HTTP response, for constant predicates (C79_clients_partial), and to the exports with commas or tabs if the terms do not contain them (C79_export_partial); queries with one triple of at most two variables do get such a response (C79_single_partial), and so do queries with connected triples if fewer than all of them have at most 1000 solutions together (C79_answered_partial), for example two triples over 1000 stored triples (small_of_length); the filters of the model of plans are those that the Filter operation executes (filter_run). Missing: OFFSET without LIMIT in exports (C20), that the execution returns a result with more solutions (the join may run past the end of a table, C13), filters with constants, GROUP BY, aliases and the other parts of queries, and what is missing in the composed properties."},
{"property": "C80", "status": "partial", "theorems": ["Verif.Counts.C80_counts_partial", "Verif.Counts.C80_clients_partial", "Verif.Counts.C80_single_partial", "Verif.Counts.C80_answered_partial"], "note": "Composition of C79 (parsing, planning, execution, clients) with C21, C22 and C72. Proved: every response composed from an execution of a plan is read by the client as the groups of the solutions for which HAVING holds, with their counts and smallest and largest values (C80_counts_partial); the same from the lines of a file of N-Triples to the HTTP response (C80_clients_partial); queries with one triple of at most two variables do get such a response (C80_single_partial), and so do queries with connected triples if fewer than all of them have at most 1000 solutions together (C80_answered_partial). Missing: that the execution returns a result with more solutions (C13), aggregates other than COUNT, MIN and MAX, HAVING other than one comparison of a COUNT with a number, DISTINCT on the rows, variable predicates, and what is missing in the composed properties."},
{"property": "C81", "status": "partial", "theorems": ["Verif.RuntimeInfo.C81_names", "Verif.RuntimeInfo.C81_gap_violated", "Verif.RuntimeInfo.C81_group_by_violated", "Verif.RuntimeInfo.C81_shows_partial", "Verif.RuntimeInfo.C81_client_partial", "Verif.RuntimeInfo.C81_original_violated", "Verif.RuntimeInfo.C81_original_always", "Verif.RuntimeInfo.C81_notes_violated", "Verif.RuntimeInfo.C81_other_names_violated", "Verif.RuntimeInfo.C81_planner_partial"], "note": "Proved: if every column has one variable, the names are shown whatever the iteration order (C81_names), which holds for every operation in the planner's plans for patterns that form a tree (C81_planner_partial); for any sequence of queries and any cache the run time information shows the plans with names, sizes and times that add up (C81_shows_partial), and clients read it from the response (C81_client_partial). Disagreements: GROUP BY ?x ?x gives undefined behaviour (C81_gap_violated, C81_group_by_violated); the times in the details of cached results are always zero or negative (C81_original_violated, C81_original_always); details noted by operations are lost (C81_notes_violated); below the root of a result from the cache the variables of an earlier query are shown (C81_other_names_violated). Missing: these cases, concurrent queries, operations whose result is computed twice."},
{"property": "C82", "status": "partial", "theorems": ["Verif.Timeout.C82_not_early", "Verif.Timeout.C82_check_partial", "Verif.Timeout.C82_result_partial", "Verif.Timeout.C82_unlimited", "Verif.Timeout.C82_remaining_partial", "Verif.Timeout.C82_loop", "Verif.Timeout.C82_counter", "Verif.Timeout.C82_measured", "Verif.Timeout.C82_mark", "Verif.Timeout.C82_parameter", "Verif.Timeout.C82_fraction", "Verif.Timeout.C82_malformed_violated", "Verif.Timeout.C82_large_violated", "Verif.Timeout.C82_lost_violated", "Verif.Timeout.C82_query_partial", "Verif.Timeout.C82_planning_violated"], "note": "Proved for any readings of the clock: no abort before the limit has passed if the clock does not run backwards (C82_not_early); a check lets a query pass exactly if the counted time is within the limit (C82_check_partial), so results are handed out in time (C82_result_partial); remaining time (C82_remaining_partial), loops (C82_loop, C82_counter), no limit (C82_unlimited), measured times (C82_measured, C82_mark), numbers of seconds as parameter (C82_parameter, C82_fraction), whole queries (C82_query_partial). Disagreements: time between stop and restart inside a check is not counted (C82_lost_violated); texts that are no numbers mean a limit of zero (C82_malformed_violated); huge numbers are undefined behaviour (C82_large_violated); scans computed during planning have no limit (C82_planning_violated). Missing: results from the cache and the export are not checked by the code and not modelled here; rounding of doubles in the parameter."},
{"property": "C83", "status": "partial", "theorems": ["Verif.SortEstimate.C83_small_violated", "Verif.SortEstimate.C83_starts_partial", "Verif.SortEstimate.C83_missing", "Verif.SortEstimate.C83_closest", "Verif.SortEstimate.C83_estimate", "Verif.SortEstimate.C83_exact", "Verif.SortEstimate.C83_cancelled_partial", "Verif.SortEstimate.C83_empty", "Verif.SortEstimate.C83_unlimited"], "note": "Disagreement, for all machines: no server starts for an index with fewer than 200000 triples (C83_small_violated), because 5 percent of the triples are less than the smallest sample and an assertion fails. Proved: from 200000 triples on all estimates exist, are measured where allowed, and are not negative (C83_starts_partial), and missing samples are extrapolated (C83_missing); closest samples (C83_closest), estimates for all sizes (C83_estimate, C83_exact), cancelled sorts (C83_cancelled_partial, up to the time that is not counted, see C82), empty tables and missing estimates (C83_empty), no limit (C83_unlimited). Missing: small indexes; rounding of floating point numbers."},
{"property": "C84", "status": "partial", "theorems": ["Verif.MetaData.C84_copied", "Verif.MetaData.C84_toMmap_partial", "Verif.MetaData.C84_toHmap_partial", "Verif.MetaData.C84_file_partial", "Verif.MetaData.C84_convert_partial", "Verif.MetaData.C84_upgrade", "Verif.MetaData.C84_format", "Verif.MetaData.C84_lost_violated", "Verif.MetaData.C84_blocks_violated", "Verif.MetaData.C84_current_partial", "Verif.MetaData.C84_old_vector_violated", "Verif.MetaData.C84_statistics", "Verif.MetaData.C84_verify", "Verif.MetaData.C84_statistics_violated", "Verif.MetaData.C84_oldest"], "note": "Proved for meta data built by any sequence of added relations, in any order of iteration: both conversions of meta data succeed with and without verification, and reading the new file gives exactly the added relations with their meta data, name, offset and number of triples (C84_toMmap_partial, C84_toHmap_partial). For any file of bytes that can be read as hash map, also of older versions: what is read after the conversion to a vector agrees with what was read before for all ids (C84_file_partial, and C84_convert_partial for the whole function), and writing it anew as hash map keeps everything with the statistics (C84_upgrade); files of the oldest format are read (C84_oldest). The relations are copied whatever the size of the file (C84_copied); a passed verification means equal entries (C84_verify). Files with vectors are recognised (C84_format), but the vector is never set up. Disagreements: without blocks the conversion to a hash map succeeds, with verification, and the result has no relation at all (C84_lost_violated); with blocks both conversions end with an exception even if nothing is to be done (C84_blocks_violated), while nothing is written for current files without blocks (C84_current_partial); conversions do not copy total size and number of blocks, they become 0 (C84_statistics, C84_statistics_violated). files with vectors of the older format are written anew without block data, so relations with blocks cannot be read any more (C84_old_vector_violated). Missing: what the violations exclude; for the configuration see C86."},
{"property": "C85", "status": "partial", "theorems": ["Verif.MetaDataIterator.C85_triples_partial", "Verif.MetaDataIterator.C85_end_violated"], "note": "Proved: all triples of all relations are seen exactly once and in order (C85_triples_partial). Disagreement, for every permutation: after the last triple, and in the constructor for a permutation without relations, the iterator reads the meta data of the relation at the end, which is undefined behaviour, before the loop asks whether it is at the end (C85_end_violated). Missing: the end of the iteration; relations without triples."},
{"property": "C86", "status": "partial", "theorems": ["Verif.Configuration.C86_prefix_file", "Verif.Configuration.C86_built", "Verif.Configuration.C86_converted_partial", "Verif.Configuration.C86_uncompressed_violated", "Verif.Configuration.C86_array_violated", "Verif.Configuration.C86_created_violated", "Verif.Configuration.C86_again"], "note": "Proved: the prefixes survive their file (C86_prefix_file); every built index is read with its prefixes (C86_built); the converter keeps the configuration of built indexes with compression (C86_converted_partial) and is idempotent on old ones (C86_again). Disagreements: the converted configuration of an old index still has the list of prefixes, so that no server reads it (C86_array_violated); the configuration created for an index without one is never read, it has the list and no locale (C86_created_violated); the converter fails for indexes without compression (C86_uncompressed_violated). Missing: conversion of old indexes, which does not work; the keys prefixes-external and languages-internal."}
]}

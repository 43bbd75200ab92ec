{
 "claims": [
  {
   "property": "C01",
   "status": "proved",
   "theorems": [
    "Verif.Replacer.C01_evict_safe_and_complete",
    "Verif.Replacer.C01_C02_replacer_refines_spec"
   ],
   "note": ""
  },
  {
   "property": "C02",
   "status": "proved",
   "theorems": [
    "Verif.Replacer.C02_evict_returns_lruk_victim",
    "Verif.Replacer.C01_C02_replacer_refines_spec"
   ],
   "note": ""
  },
  {
   "property": "C03",
   "status": "proved",
   "theorems": [
    "Verif.Fifo.C03_fifo_refines_list",
    "Verif.Fifo.C03_fifo_capacity",
    "Verif.Fifo.C03_spec_full_insert"
   ],
   "note": ""
  },
  {
   "property": "C04",
   "status": "proved",
   "theorems": [
    "Verif.Lfu.C04_lfu_refines_spec",
    "Verif.Lfu.C04_lfu_capacity"
   ],
   "note": ""
  },
  {
   "property": "C05",
   "status": "partial",
   "theorems": [
    "Verif.HeapLfu.C05_heap_lfu_refines_spec_partial",
    "Verif.HeapLfu.C05_heap_lfu_capacity_partial",
    "Verif.HeapLfu.C05_heap_lfu_capacity_zero_fails"
   ],
   "note": "holds for capacity >= 1; with capacity 0 the code stores an entry, which the _fails theorem shows"
  },
  {
   "property": "C06",
   "status": "proved",
   "theorems": [
    "Verif.Lru.C06_lru_refines_list",
    "Verif.Lru.C06_lru_list_and_map_agree"
   ],
   "note": ""
  },
  {
   "property": "C07",
   "status": "proved",
   "theorems": [
    "Verif.Rid.C07_rid_bytes_round_trip",
    "Verif.Rid.C07_rid_bytes_canonical",
    "Verif.Rid.C07_rid_i64_round_trip",
    "Verif.Rid.C07_rid_i64_onto"
   ],
   "note": ""
  },
  {
   "property": "C08",
   "status": "proved",
   "theorems": [
    "Verif.Watermark.C08_watermark_bounds_active"
   ],
   "note": ""
  },
  {
   "property": "C09",
   "status": "proved",
   "theorems": [
    "Verif.Watermark.C09_timestamps_strictly_increase",
    "Verif.Watermark.C09_commit_ts_respected",
    "Verif.Watermark.C09_watermark_monotone",
    "Verif.Watermark.C09_watermark_monotone_stale_add_fails"
   ],
   "note": "watermark monotone under the condition the transaction manager meets; the raw API with stale add is shown to break it"
  },
  {
   "property": "C10",
   "status": "proved",
   "theorems": [
    "Verif.Locks.C10_compatible_iff_no_conflict",
    "Verif.Locks.C10_compatible_symm"
   ],
   "note": ""
  },
  {
   "property": "C11",
   "status": "partial",
   "theorems": [
    "Verif.Locks.C11_table_locks_exclude_partial",
    "Verif.Locks.C11_is_to_s_fails",
    "Verif.Locks.C11_ix_to_x_fails"
   ],
   "note": "holds for histories without IS->S and IX->X upgrades; those two upgrades skip the check of other holders"
  },
  {
   "property": "C12",
   "status": "proved",
   "theorems": [
    "Verif.Locks.C12_row_locks_exclude"
   ],
   "note": ""
  },
  {
   "property": "C13",
   "status": "proved",
   "theorems": [
    "Verif.Locks.C13_detects_iff_cycle",
    "Verif.Locks.C13_victim_is_greatest_on_a_cycle",
    "Verif.Locks.C13_search_terminates"
   ],
   "note": ""
  },
  {
   "property": "C14",
   "status": "proved",
   "theorems": [
    "Verif.Mvcc.C14_visibility_status",
    "Verif.Mvcc.C14_is_tuple_visible"
   ],
   "note": ""
  },
  {
   "property": "C15",
   "status": "proved",
   "theorems": [
    "Verif.Mvcc.C15_walk_first_visible",
    "Verif.Mvcc.C15_walk_newest"
   ],
   "note": ""
  },
  {
   "property": "C16",
   "status": "partial",
   "theorems": [
    "Verif.Mvcc.C16_abort_restores_partial",
    "Verif.Mvcc.C16_abort_twice_fails",
    "Verif.Mvcc.C16_abort_insert_update_fails"
   ],
   "note": "holds when the aborted transaction wrote each row once and only rows it could see; false when it wrote a row twice"
  },
  {
   "property": "C17",
   "status": "proved",
   "theorems": [
    "Verif.Mvcc.C17_forget_only_unneeded"
   ],
   "note": "aborted transactions are forgotten earlier than some readers need: see C53_lost_version_fails"
  },
  {
   "property": "C18",
   "status": "partial",
   "theorems": [
    "Verif.Mvcc.C18_atomic_commit_partial",
    "Verif.Mvcc.C18_commit_steps_fails"
   ],
   "note": "holds if a commit is one step; the code draws the timestamp before it stamps the rows"
  },
  {
   "property": "C19",
   "status": "proved",
   "theorems": [
    "Verif.Hash.C19_directory_well_formed",
    "Verif.Hash.C19_verify_integrity_passes"
   ],
   "note": "for histories of splits; a merge breaks it, see C21"
  },
  {
   "property": "C20",
   "status": "partial",
   "theorems": [
    "Verif.Hash.C20_C21_table_refines_list_partial",
    "Verif.Hash.C20_insert_accepted_partial",
    "Verif.Hash.C20_lookup_after_split_fails",
    "Verif.Hash.C20_equal_hash_refused"
   ],
   "note": "holds while every split goes through the lowest slot of its bucket; the code redistributes wrongly otherwise"
  },
  {
   "property": "C21",
   "status": "partial",
   "theorems": [
    "Verif.Hash.C20_C21_table_refines_list_partial",
    "Verif.Hash.C21_remove_merge_fails"
   ],
   "note": "holds for removals that do not merge buckets; a merge deletes the buddy's page"
  },
  {
   "property": "C22",
   "status": "proved",
   "theorems": [
    "Verif.BTree.C22_scan_exact",
    "Verif.BTree.C22_lookup",
    "Verif.BTree.C22_scan_repeated_keys",
    "Verif.BTree.C22_same_pair_twice",
    "Verif.BTree.C22_odd_order_repeated_keys_fails",
    "Verif.BTree.C22_null_key_fails"
   ],
   "note": "Proved for every insert sequence with distinct keys of a totally ordered key type, every order >= 3 and every range. Also for repeated keys when the order is even (the code uses 4). Three findings: the same pair can be stored twice, odd orders break with repeated keys, NULL keys are returned by range scans."
  },
  {
   "property": "C23",
   "status": "proved",
   "theorems": [
    "Verif.BTree.C23_well_formed"
   ],
   "note": "Every insert sequence with distinct keys, every order >= 3."
  },
  {
   "property": "C24",
   "status": "partial",
   "theorems": [
    "Verif.BTree.C24_delete_partial",
    "Verif.BTree.C24_delete_two_levels_partial",
    "Verif.BTree.C24_delete_fails",
    "Verif.BTree.C24_insert_after_delete_fails"
   ],
   "note": "Proved for all histories of inserts with new keys and deletes in which no merge of internal nodes removes a second separator, in particular for all deletes from trees with one level above the leaves. The full claim is false: after inserting 0..8 in order 4 and deleting 0, entry 4 cannot be deleted."
  },
  {
   "property": "C25",
   "status": "partial",
   "theorems": [
    "Verif.BTree.C25_iterate_partial",
    "Verif.BTree.C25_iterate_never_ends",
    "Verif.BTree.C25_iterate_fails",
    "Verif.BTree.C25_one_bound_fails"
   ],
   "note": "Proved for the full scan and for ranges that are empty or contain the end key. For every other range it is proved that the iterator never ends."
  },
  {
   "property": "C26",
   "status": "proved",
   "theorems": [
    "Verif.Pool.C26_books_agree",
    "Verif.Pool.C26_new_fails_only_when_full"
   ],
   "note": "All histories of calls that do not overlap, all pool sizes, all disk outcomes, all clock readings. Overlapping calls are C62."
  },
  {
   "property": "C27",
   "status": "partial",
   "theorems": [
    "Verif.Pool.C27_read_back_partial",
    "Verif.Pool.C27_fresh_page_lost_fails",
    "Verif.Pool.C27_restart_fails"
   ],
   "note": "Proved as a refinement for all histories on an initially empty disk whose writes succeed. Full claim is false in two ways: a page never written to is lost when evicted, and after a restart new pages come back with old content."
  },
  {
   "property": "C28",
   "status": "partial",
   "theorems": [
    "Verif.Pool.C28_frames_kept_partial",
    "Verif.Pool.C28_one_frame_per_failed_fetch_partial",
    "Verif.Pool.C28_failed_load_loses_frame_fails",
    "Verif.Pool.C28_pool_exhausted_fails"
   ],
   "note": "False in the code: every failed load loses a frame for good. Proved: nothing else does, and each failed fetch loses one at most."
  },
  {
   "property": "C29",
   "status": "partial",
   "theorems": [
    "Verif.Wal.C29_log_in_lsn_order_partial",
    "Verif.Wal.C29_acknowledged_commits_survive_partial",
    "Verif.Wal.C29_commit_returns_after_write_error_fails",
    "Verif.Wal.C29_hole_after_write_error_fails",
    "Verif.Wal.C29_commit_after_shutdown_fails",
    "Verif.Wal.C29_lsns_repeat_after_restart_fails",
    "Verif.Wal.C29_commit_acknowledged_early_after_recovery_fails",
    "Verif.Wal.C29_no_sync_fails"
   ],
   "note": "Proved for every interleaving, and every cut of the file after a crash, while the flush task has not stopped. Full claim is false: a commit also returns when the flush task has died of a write error, LSNs start again at zero after a restart, and recovery declares an LSN persistent that is yet to be given out."
  },
  {
   "property": "C30",
   "status": "proved",
   "theorems": [
    "Verif.Wal.C30_read_back",
    "Verif.Wal.C30_torn_tail",
    "Verif.Wal.C30_zero_tail",
    "Verif.Wal.C30_crash_at_any_byte"
   ],
   "note": "Byte level, all records and cuts."
  },
  {
   "property": "C31",
   "status": "partial",
   "theorems": [
    "Verif.Wal.C31_row_logs_recovered_partial",
    "Verif.Wal.C31_recovery_ends",
    "Verif.Wal.C31_engine_logs_restore_nothing_fails",
    "Verif.Wal.C31_no_pages_restore_nothing_fails",
    "Verif.Wal.C31_aborted_update_comes_back_fails",
    "Verif.Wal.C31_repeated_lsns_fails",
    "Verif.Wal.C31_insert_repeated_fails",
    "Verif.Wal.C31_recovered_row_not_committed_fails"
   ],
   "note": "Proved for all legal histories of begins, inserts, updates, deletes and commits, all crash points, all undo orders and all page states, except that pages with inserts must not have been written since the log began. Missing, because false of the code: the engine writes no row records, recovery gets no pages, an insert that had reached its page is inserted twice, rolled back changes come back, LSNs repeat after a restart."
  },
  {
   "property": "C32",
   "status": "partial",
   "theorems": [
    "Verif.TablePage.C32_rows_partial",
    "Verif.TablePage.C32_apart_partial",
    "Verif.TablePage.C32_in_page",
    "Verif.TablePage.C32_no_panic",
    "Verif.TablePage.C32_insert_place",
    "Verif.TablePage.C32_refused_unchanged",
    "Verif.TablePage.C32_insert_accepted",
    "Verif.TablePage.C32_count",
    "Verif.TablePage.C32_deleted_count_partial",
    "Verif.TablePage.C32_grown_row_fails",
    "Verif.TablePage.C32_given_place_fails",
    "Verif.TablePage.C32_long_update_panics_fails",
    "Verif.TablePage.C32_deleted_count_fails"
   ],
   "note": "Proved for every history in which no row is inserted after an older row has grown (staying inside the page, not panicking on rows under 64 KiB, refusing without effect and the count of rows are proved for every history; the count of deleted rows for every history that changes the flag by the metadata alone). Full claim is false: an insert after an older row has grown overwrites that row, and rewriting a row with another deleted flag does not move the count."
  },
  {
   "property": "C33",
   "status": "proved",
   "theorems": [
    "Verif.Sql.C33_formula",
    "Verif.Sql.C33_tables",
    "Verif.Sql.C33_laws",
    "Verif.Sql.C33_is"
   ],
   "note": "All formulas over any operands that evaluate to a truth value, in row and join mode."
  },
  {
   "property": "C34",
   "status": "partial",
   "theorems": [
    "Verif.Sql.C34_or_order",
    "Verif.Sql.C34_any",
    "Verif.Sql.C34_all_partial",
    "Verif.Sql.C34_all_fails",
    "Verif.Sql.C34_in_partial",
    "Verif.Sql.C34_in_empty_fails",
    "Verif.Sql.C34_in_items_fails",
    "Verif.Sql.C34_in_parsed_partial"
   ],
   "note": "ANY and IN proved for all lists (IN: not NULL IN an empty list). Full claim is false: ALL with NULLs depends on list order, and the parser turns IN items that are not literals into NULL."
  },
  {
   "property": "C35",
   "status": "partial",
   "theorems": [
    "Verif.Sql.C35_like_partial",
    "Verif.Sql.C35_returns_partial",
    "Verif.Sql.C35_non_ascii_fails",
    "Verif.Sql.C35_case_fails",
    "Verif.Sql.C35_null_fails"
   ],
   "note": "Proved: whenever the matcher returns it is right, and it returns on all ASCII text. Full claim is false: % panics on other text, LIKE ignores case, NULL is matched as the text NULL."
  },
  {
   "property": "C36",
   "status": "partial",
   "theorems": [
    "Verif.Sql.C36_substring_partial",
    "Verif.Sql.C36_substring_rest_partial",
    "Verif.Sql.C36_substring_returns_partial",
    "Verif.Sql.C36_position_fails",
    "Verif.Sql.C36_panic_fails",
    "Verif.Sql.C36_overlay_partial",
    "Verif.Sql.C36_overlay_literal_fails"
   ],
   "note": "Proved for ASCII text, positions from 1 and lengths from 0. Full claim is false for positions below 1, other text, and OVERLAY with number literals."
  },
  {
   "property": "C37",
   "status": "partial",
   "theorems": [
    "Verif.Sql.C37_coalesce",
    "Verif.Sql.C37_coalesce_null",
    "Verif.Sql.C37_case_partial",
    "Verif.Sql.C37_case_else_partial",
    "Verif.Sql.C37_case_null_fails",
    "Verif.Sql.C37_case_of_partial",
    "Verif.Sql.C37_case_of_fails",
    "Verif.Sql.C37_distinct_partial",
    "Verif.Sql.C37_distinct_fails",
    "Verif.Sql.C37_distinct_types_fails",
    "Verif.Sql.C37_between",
    "Verif.Sql.C37_between_expr_fails"
   ],
   "note": "COALESCE and BETWEEN proved in full; CASE for conditions that are not NULL, simple CASE and IS DISTINCT for values of one type. Full claim is false: a NULL condition is an error, the parser exchanges IS DISTINCT and IS NOT DISTINCT, and equality there takes types into account."
  },
  {
   "property": "C38",
   "status": "partial",
   "theorems": [
    "Verif.Sql.C38_equality",
    "Verif.Sql.C38_equal_hash",
    "Verif.Sql.C38_order_coherent",
    "Verif.Sql.C38_order_total_partial",
    "Verif.Sql.C38_order_total_fails",
    "Verif.Sql.C38_int_compare",
    "Verif.Sql.C38_null_compare",
    "Verif.Sql.C38_int_decimal_partial",
    "Verif.Sql.C38_int_float_partial",
    "Verif.Sql.C38_float_decimal_partial",
    "Verif.Sql.C38_float_decimal_fails",
    "Verif.Sql.C38_bigint_decimal_fails",
    "Verif.Sql.C38_key_fails",
    "Verif.Sql.C38_struct_fails",
    "Verif.Sql.C38_array_fails"
   ],
   "note": "Proved for all values: equality is an equivalence, equal values hash equally, the order is coherent with equality and transitive, mixed-width integer comparison is exact. Missing: the order is total only without NaN, and hash keys of SQL-equal numbers of different types differ (both false of the code)."
  },
  {
   "property": "C39",
   "status": "proved",
   "theorems": [
    "Verif.Sql.C39_cast",
    "Verif.Sql.C39_preserves",
    "Verif.Sql.C39_round_trip",
    "Verif.Sql.C39_null"
   ],
   "note": "All sixteen type pairs and every integer."
  },
  {
   "property": "C40",
   "status": "proved",
   "theorems": [
    "Verif.Exec.C40_deterministic",
    "Verif.Exec.C40_limit",
    "Verif.Exec.C40_offset",
    "Verif.Exec.C40_where",
    "Verif.Exec.C40_query",
    "Verif.Exec.C40_projection",
    "Verif.Exec.C40_where_hides_errors"
   ],
   "note": "All children, bounds and predicates that evaluate to a truth value. Finding: a row on which the predicate does not evaluate is dropped without an error."
  },
  {
   "property": "C41",
   "status": "partial",
   "theorems": [
    "Verif.Exec.C41_sort_partial",
    "Verif.Exec.C41_integers",
    "Verif.Exec.C41_input_error_fails"
   ],
   "note": "Proved for all key lists whose keys evaluate and are free of NaN; spelled out for integer keys with NULLs. Missing: when the input fails the code sorts and returns what it has."
  },
  {
   "property": "C42",
   "status": "partial",
   "theorems": [
    "Verif.Exec.C42_distinct_partial",
    "Verif.Exec.C42_firsts",
    "Verif.Exec.C42_null_fails",
    "Verif.Exec.C42_zero_fails"
   ],
   "note": "Proved for rows of one shape of Integer, BigInt, Boolean, Decimal (no NaN, no -0.0), text and all-NULL columns. Full claim is false: (NULL, -1) and (-1, NULL) have one encoding, and 0.0 and -0.0 are kept apart."
  },
  {
   "property": "C43",
   "status": "partial",
   "theorems": [
    "Verif.Exec.C43_inner_cross",
    "Verif.Exec.C43_left",
    "Verif.Exec.C43_left_perm",
    "Verif.Exec.C43_outer_partial",
    "Verif.Exec.C43_right_empty_fails",
    "Verif.Exec.C43_right_duplicate_fails"
   ],
   "note": "INNER, CROSS and LEFT proved for all inputs; RIGHT and FULL when the left side is not empty and the right rows differ. Full claim is false in those two cases."
  },
  {
   "property": "C44",
   "status": "partial",
   "theorems": [
    "Verif.Exec.C44_first_match_partial",
    "Verif.Exec.C44_small_build",
    "Verif.Exec.C44_equijoin_partial",
    "Verif.Exec.C44_duplicate_fails",
    "Verif.Exec.C44_null_fails",
    "Verif.Exec.C44_types_fails",
    "Verif.Exec.C44_right_error_fails"
   ],
   "note": "Proved: the first match per left row for all inputs, and the equi-join for integer keys of one type with distinct right keys. Full claim is false: duplicate right keys lose pairs, NULL joins NULL, equal integers of two types do not join, and a right side that fails is not reported."
  },
  {
   "property": "C45",
   "status": "partial",
   "theorems": [
    "Verif.Exec.C45_groups",
    "Verif.Exec.C45_aggregates_partial",
    "Verif.Exec.C45_empty",
    "Verif.Exec.C45_count_fails",
    "Verif.Exec.C45_empty_sum_fails",
    "Verif.Exec.C45_sum_fails",
    "Verif.Exec.C45_avg_fails",
    "Verif.Exec.C45_input_error_fails",
    "Verif.Exec.C45_plus"
   ],
   "note": "Proved: one output row per group for all inputs; COUNT(*), SUM, MIN, MAX of integer columns when no sum overflows. Full claim is false: COUNT(x) counts NULLs, SUM of nothing is 0, an overflow panics, AVG of SmallInt is NULL, a failing input is not reported. C45_plus: values of different integer types are added exactly, in the larger type."
  },
  {
   "property": "C46",
   "status": "partial",
   "theorems": [
    "Verif.Exec.C46_topn_partial",
    "Verif.Exec.listHeap_lawful",
    "Verif.Exec.C46_first_fails",
    "Verif.Exec.C46_panic_fails"
   ],
   "note": "Proved: the output is a set of k rows with the greatest keys, in an order the standard library leaves open. Full claim is false: those are the last rows in sort order."
  },
  {
   "property": "C47",
   "status": "partial",
   "theorems": [
    "Verif.Exec.C47_bounds_partial",
    "Verif.Exec.C47_filter",
    "Verif.Exec.C47_rows_partial",
    "Verif.Exec.C47_sides_fails",
    "Verif.Exec.C47_not_equal_fails",
    "Verif.Exec.C47_or_in_and_fails",
    "Verif.Exec.C47_other_column_fails",
    "Verif.Exec.C47_literal_types_fails",
    "Verif.Exec.C47_error_fails"
   ],
   "note": "Proved for an OR of ANDs of comparisons of the key column with integers of one type, whose parts are bounded on the same sides. Full claim is false for each of the other shapes, one witness each."
  },
  {
   "property": "C48",
   "status": "proved",
   "theorems": [
    "Verif.LruK.C48_lruk_cache_refines_spec",
    "Verif.LruK.C48_lruk_cache_capacity"
   ],
   "note": ""
  },
  {
   "property": "C49",
   "status": "partial",
   "theorems": [
    "Verif.Locks.C49_release_returns_partial",
    "Verif.Locks.C49_release_with_waiter_fails",
    "Verif.Locks.C49_failed_upgrade_blocks_table_fails"
   ],
   "note": "release returns when nobody waits; with a waiter the code relocks a mutex it holds and blocks"
  },
  {
   "property": "C50",
   "status": "partial",
   "theorems": [
    "Verif.Locks.C50_force_release_drops_locks_partial",
    "Verif.Locks.C50_waiting_request_stays_fails"
   ],
   "note": "granted locks are all dropped (same side condition as C11); waiting requests are not"
  },
  {
   "property": "C51",
   "status": "partial",
   "theorems": [
    "Verif.Locks.C51_row_lock_needs_table_lock_partial",
    "Verif.Locks.C51_table_unlock_refused_partial",
    "Verif.Locks.C51_table_unlocked_first_fails",
    "Verif.Locks.C51_row_unlock_fails"
   ],
   "note": "grant condition holds; release condition only when the page number equals the table oid"
  },
  {
   "property": "C52",
   "status": "partial",
   "theorems": [
    "Verif.Locks.C52_two_phase_repeatable_read_partial",
    "Verif.Locks.C52_two_phase_read_committed_partial",
    "Verif.Locks.C52_two_phase_read_uncommitted_partial",
    "Verif.Locks.C52_serializable_relocks_fails",
    "Verif.Locks.C52_read_uncommitted_aborted_fails"
   ],
   "note": "holds for repeatable read and, for locks that allow writing, read committed and read uncommitted (there unless the transaction was aborted: an aborted one is still granted locks); serializable never refuses a lock"
  },
  {
   "property": "C53",
   "status": "partial",
   "theorems": [
    "Verif.Mvcc.C53_snapshot_isolation_partial",
    "Verif.Mvcc.C53_lost_version_fails"
   ],
   "note": "holds for histories without lost updates and without aborts of double writers; false otherwise"
  },
  {
   "property": "C54",
   "status": "partial",
   "theorems": [
    "Verif.Mvcc.C54_dirty_write_refused_partial",
    "Verif.Mvcc.C54_lost_update_fails"
   ],
   "note": "uncommitted conflicts are refused; committed ones are not checked against the snapshot"
  },
  {
   "property": "C55",
   "status": "partial",
   "theorems": [
    "Verif.Mvcc.C55_read_committed_partial",
    "Verif.Mvcc.C55_read_committed_stale_fails"
   ],
   "note": "holds unless the current version is another's uncommitted one"
  },
  {
   "property": "C56",
   "status": "partial",
   "theorems": [
    "Verif.Mvcc.C56_sql_update_committed_partial",
    "Verif.Mvcc.C56_sql_update_own_fails",
    "Verif.Mvcc.C56_sql_dirty_write_fails"
   ],
   "note": "holds for committed rows only"
  },
  {
   "property": "C57",
   "status": "partial",
   "theorems": [
    "Verif.Mvcc.C57_gc_partial",
    "Verif.Mvcc.C57_gc_fails"
   ],
   "note": "Proved for every history described by RunOk: garbage collection changes no answer of a running repeatable-read reader for rows whose newest version it sees and for rows whose last updater began after the watermark. Missing, because false of the code: the version chain of a row last updated by the oldest running transaction or by a transaction that is no longer known is dropped. Not proved: what a later abort restores. The function is only called from tests."
  },
  {
   "property": "C58",
   "status": "partial",
   "theorems": [
    "Verif.Locks.C58_others_keep_locks",
    "Verif.Locks.C58_refused_keeps_locks_partial",
    "Verif.Locks.C58_refused_upgrade_fails"
   ],
   "note": "other transactions' locks are safe; a refused upgrade drops the lock it upgrades"
  },
  {
   "property": "C59",
   "status": "partial",
   "theorems": [
    "Verif.Hash.C59_serialize_round_trip_partial",
    "Verif.Hash.C59_reload_fails",
    "Verif.Hash.C59_lookup_partial"
   ],
   "note": "the two byte functions are inverse; the writing one is never called, so every reloaded bucket is empty"
  },
  {
   "property": "C60",
   "status": "partial",
   "theorems": [
    "Verif.Pool.C60_failed_flush_keeps_page_partial",
    "Verif.Pool.C60_eviction_loses_write_fails"
   ],
   "note": "Holds for flush_page. False for eviction: the error is logged and the page dropped."
  },
  {
   "property": "C61",
   "status": "proved",
   "theorems": [
    "Verif.Pool.C61_flush_all"
   ],
   "note": "All histories of calls that do not overlap."
  },
  {
   "property": "C62",
   "status": "partial",
   "theorems": [
    "Verif.Pool.C62_same_object_partial",
    "Verif.Pool.C62_overlapping_fetches_fails"
   ],
   "note": "Holds when calls do not overlap. Two overlapping fetches of a page that is not in memory load it twice."
  },
  {
   "property": "C63",
   "status": "proved",
   "theorems": [
    "Verif.Wal.C63_value_roundtrip",
    "Verif.Wal.C63_row_roundtrip",
    "Verif.Wal.C63_meta_roundtrip",
    "Verif.Wal.C63_rows_distinguished"
   ],
   "note": "All values and nestings whose numbers fit their Rust types."
  },
  {
   "property": "C64",
   "status": "partial",
   "theorems": [
    "Verif.Wal.C64_append_after_restart_partial",
    "Verif.Wal.C64_append_after_torn_tail_fails",
    "Verif.Wal.C64_long_record_fails"
   ],
   "note": "False after a torn tail: new records go after the torn one, and the reader loses them. False for records over a million bytes. Proved when the log ends with a whole record."
  },
  {
   "property": "C65",
   "status": "partial",
   "theorems": [
    "Verif.TablePage.C65_bytes_partial",
    "Verif.TablePage.C65_stale_bytes_fails",
    "Verif.TablePage.C65_empty_page_fails",
    "Verif.TablePage.C65_reload_fails",
    "Verif.TablePage.C65_row_lost_fails",
    "Verif.TablePage.C65_page_bytes_partial"
   ],
   "note": "Proved: right after an accepted insert the bytes deserialize to exactly the page. Full claim is false: updates, metadata and link changes do not refresh the bytes, an empty page's bytes are refused, and the buffer pool never deserializes a table page, so every row is lost on reload."
  },
  {
   "property": "C66",
   "status": "partial",
   "theorems": [
    "Verif.Sql.C66_exact",
    "Verif.Sql.C66_null_fails",
    "Verif.Sql.C66_join_partial",
    "Verif.Sql.C66_join_fails",
    "Verif.Sql.C66_join_small_fails",
    "Verif.Sql.C66_negate_partial",
    "Verif.Sql.C66_negate_fails",
    "Verif.Sql.C66_modulo_partial",
    "Verif.Sql.C66_modulo_fails"
   ],
   "note": "Proved: + - * / on all integers. Full claim is false: NULL operands give an error, a Decimal on the left of an integer is exchanged in joins, unary minus overflows unchecked, % on anything but Integer gives NULL."
  },
  {
   "property": "C67",
   "status": "proved",
   "theorems": [
    "Verif.Sql.C67_round_trip",
    "Verif.Sql.C67_read"
   ],
   "note": "All integers of the four types and both string types."
  },
  {
   "property": "C68",
   "status": "partial",
   "theorems": [
    "Verif.Sql.C68_truncates_partial",
    "Verif.Sql.C68_round_trip_partial",
    "Verif.Sql.C68_saturates_fails",
    "Verif.Sql.C68_rounds_fails",
    "Verif.Sql.C68_timestamp_fails"
   ],
   "note": "Proved for finite floats whose whole part fits, and for integers of at most 53 bits through Decimal. Full claim is false: out-of-range floats saturate, NaN becomes 0, large BigInts round, large timestamps turn negative."
  },
  {
   "property": "C69",
   "status": "partial",
   "theorems": [
    "Verif.Sql.C69_int",
    "Verif.Sql.C69_int_decimal_partial",
    "Verif.Sql.C69_decimal_int_fails",
    "Verif.Sql.C69_string_fails"
   ],
   "note": "Proved for all pairs of integers and for integers of at most 53 bits against a Decimal on the right. Full claim is false: a Decimal on the left is cut to the integer's type."
  },
  {
   "property": "C70",
   "status": "partial",
   "theorems": [
    "Verif.Sql.C70_join_partial",
    "Verif.Sql.C70_modulo_fails",
    "Verif.Sql.C70_arith_fails"
   ],
   "note": "Proved for all expressions without arithmetic, % and ||. Full claim is false for those."
  },
  {
   "property": "C71",
   "status": "partial",
   "theorems": [
    "Verif.Sql.C71_trim_partial",
    "Verif.Sql.C71_trim_what_fails",
    "Verif.Sql.C71_position_partial",
    "Verif.Sql.C71_position_fails"
   ],
   "note": "TRIM's evaluation proved for all strings and sets; POSITION for single-byte text. Full claim is false: the parser drops the set of TRIM, and POSITION counts bytes."
  },
  {
   "property": "C72",
   "status": "partial",
   "theorems": [
    "Verif.Plan.C72_same_rows_partial",
    "Verif.Plan.C72_terminates",
    "Verif.Plan.C72_double_projection_fails",
    "Verif.Plan.C72_nested_rename_fails",
    "Verif.Plan.C72_merged_filters_fails",
    "Verif.Plan.C72_cross_join_fails"
   ],
   "note": "Proved for all plans satisfying `Safe` (no projection directly on a projection, renames not nested, merged filters decided on the rows) and an index that gives the table's rows in order. Full claim is false: witnesses for each exclusion."
  },
  {
   "property": "C73",
   "status": "partial",
   "theorems": [
    "Verif.Plan.C73_select_partial",
    "Verif.Plan.C73_order_by_input_partial",
    "Verif.Plan.C73_group_by_partial",
    "Verif.Plan.C73_two_sums_fails",
    "Verif.Plan.C73_aggregate_first_fails",
    "Verif.Plan.C73_alias_fails",
    "Verif.Plan.C73_having_fails",
    "Verif.Plan.C73_having_column_fails",
    "Verif.Plan.C73_order_by_group_fails",
    "Verif.Plan.C73_mixed_order_fails",
    "Verif.Plan.C73_ambiguous_fails",
    "Verif.Plan.C73_group_by_expression_fails",
    "Verif.Plan.C73_one_row_fails"
   ],
   "note": "Proved from names to rows, through planner, optimizer and executors: all SELECTs without aggregates whose expressions evaluate (WHERE, DISTINCT, ORDER BY, LIMIT, OFFSET), and GROUP BY when the SELECT list is the GROUP BY columns followed by aggregates of different functions, also without GROUP BY (one row, also for no rows, when there is no SUM). Full claim is false, one witness each: repeated functions, aggregates before group columns, aliases, HAVING, ORDER BY of a column that is not selected in a grouped query, ambiguous names, GROUP BY of an expression."
  },
  {
   "property": "C74",
   "status": "partial",
   "theorems": [
    "Verif.Plan.C74_fresh_index_partial",
    "Verif.Plan.C74_stale_fails",
    "Verif.Plan.C74_insert_fails"
   ],
   "note": "Proved right after the index was created (integer keys without repetition). Full claim is false: no statement maintains an index, so rows inserted later are never found."
  },
  {
   "property": "C75",
   "status": "partial",
   "theorems": [
    "Verif.Dml.C75_delete_partial",
    "Verif.Dml.C75_delete_touches_only_selected",
    "Verif.Dml.C75_dirty_fails"
   ],
   "note": "Proved for all tables whose pages can be read, when the selected rows are committed or the transaction's own. `C75_delete_touches_only_selected` holds however the statement ends. Full claim is false: the scan also reads rows other transactions have not committed, and then fails."
  },
  {
   "property": "C76",
   "status": "partial",
   "theorems": [
    "Verif.Dml.C76_update_partial",
    "Verif.Dml.C76_update_touches_only_selected",
    "Verif.Dml.C76_dirty_fails",
    "Verif.Dml.C76_own_row_fails"
   ],
   "note": "Proved for all tables whose pages can be read, when the selected rows are committed, the expressions evaluate and the new rows fit in place. Full claim is false: uncommitted rows of others, and of the transaction itself, make it fail."
  },
  {
   "property": "C77",
   "status": "partial",
   "theorems": [
    "Verif.Dml.C77_scan_partial",
    "Verif.Dml.C77_unreadable_fails",
    "Verif.Dml.C77_reported_rid_fails"
   ],
   "note": "Proved when every page can be read, for the record id inside the returned row. Full claim is false: an unreadable page ends the scan silently, and the record id reported beside the row is that of the first deleted row before it."
  },
  {
   "property": "C78",
   "status": "partial",
   "theorems": [
    "Verif.Dml.C78_insert_values_partial",
    "Verif.Dml.C78_insert_values_runs_partial",
    "Verif.Dml.C78_insert_select_partial",
    "Verif.Dml.C78_default_fails",
    "Verif.Dml.C78_select_swapped_fails",
    "Verif.Dml.C78_select_first_column_fails",
    "Verif.Dml.C78_select_limit_fails"
   ],
   "note": "Proved for VALUES but for DEFAULT, and for SELECT whose columns have the names of the columns to fill. Full claim is false: DEFAULT never applies, values of a SELECT go to columns of the same name or by position in the table, LIMIT is ignored."
  },
  {
   "property": "C79",
   "status": "partial",
   "theorems": [
    "Verif.Dml.C79_primary_key_not_null_partial",
    "Verif.Dml.C79_foreign_key_partial",
    "Verif.Dml.C79_not_null_fails",
    "Verif.Dml.C79_primary_key_fails",
    "Verif.Dml.C79_counter_fails",
    "Verif.Dml.C79_unique_fails",
    "Verif.Dml.C79_check_fails",
    "Verif.Dml.C79_length_fails",
    "Verif.Dml.C79_parent_deleted_fails",
    "Verif.Dml.C79_child_updated_fails"
   ],
   "note": "Proved of the rows INSERT adds: no NULL in a primary key, foreign keys refer to a visible row. Every other constraint, and the foreign keys under UPDATE and DELETE, are not enforced: one witness each."
  },
  {
   "property": "C80",
   "status": "partial",
   "theorems": [
    "Verif.Dml.C80_insert_types_partial",
    "Verif.Dml.C80_update_fails",
    "Verif.Dml.C80_bigint_key_fails"
   ],
   "note": "Proved for INSERT when primary keys are INTEGER. Full claim is false for UPDATE, which does not cast, and for generated keys of another type."
  },
  {
   "property": "C81",
   "status": "partial",
   "theorems": [
    "Verif.Dml.C81_one_row_partial",
    "Verif.Dml.C81_insert_fails",
    "Verif.Dml.C75_dirty_fails",
    "Verif.Dml.C76_dirty_fails"
   ],
   "note": "Proved for INSERT of one row. Full claim is false: the rows handled before the error stay changed."
  },
  {
   "property": "C82",
   "status": "partial",
   "theorems": [
    "Verif.Net.C82_prefix_free",
    "Verif.Net.C82_requests_partial",
    "Verif.Net.C82_split_fails",
    "Verif.Net.C82_long_fails",
    "Verif.Net.C82_pipelined_fails",
    "Verif.Net.C82_injection_fails"
   ],
   "note": "Proved when every request arrives in one read of its own, which holds for none longer than 1024 bytes. Full claim is false: there is no framing, so a request that is cut, longer than 1024 bytes, or joined to another is refused or lost, for all requests; and what a query has after its first bytes can be handled as a request of its own."
  },
  {
   "property": "C83",
   "status": "partial",
   "theorems": [
    "Verif.Net.C83_response_partial",
    "Verif.Net.C83_cut_fails",
    "Verif.Net.C83_long_fails"
   ],
   "note": "Proved for responses of up to 4096 bytes, cut in any way the client's loop reads to the end. Full claim is false: a response of more than 8192 bytes is an error however it is cut."
  },
  {
   "property": "C84",
   "status": "partial",
   "theorems": [
    "Verif.Session.C84_sessions_partial",
    "Verif.Session.C84_sql_begin_fails",
    "Verif.Session.C84_sql_commit_fails",
    "Verif.Session.C84_sql_rollback_fails",
    "Verif.Session.C84_flush_fails",
    "Verif.Catalog.C84_create_table_stays_fails"
   ],
   "note": "Proved for all histories in which transactions are begun and ended by requests, nothing is prepared and pages can be flushed. Full claim is false for BEGIN, COMMIT and ROLLBACK as SQL statements, when a flush fails, and for CREATE TABLE, which no ROLLBACK undoes."
  },
  {
   "property": "C85",
   "status": "partial",
   "theorems": [
    "Verif.Session.C85_running_is_held_partial",
    "Verif.Session.C85_all_gone_partial",
    "Verif.Session.C85_leak_fails"
   ],
   "note": "Proved for all histories in which transactions are begun and ended by requests and nothing is prepared. Full claim is false for BEGIN and AND CHAIN as SQL statements."
  },
  {
   "property": "C86",
   "status": "partial",
   "theorems": [
    "Verif.Session.C86_execute_fails",
    "Verif.Session.C86_prepare_fails",
    "Verif.Session.C86_no_row_fails"
   ],
   "note": "The claim is false: preparing runs the statement, executing is always an error. Proved after all histories that executing has no effect."
  },
  {
   "property": "C87",
   "status": "proved",
   "theorems": [
    "Verif.Session.C87_begin_level",
    "Verif.Session.C87_autocommit_level"
   ],
   "note": "For all histories, those with SQL transaction statements and PREPARE included."
  },
  {
   "property": "C88",
   "status": "partial",
   "theorems": [
    "Verif.Disk.Props.C88_after_flush_partial",
    "Verif.Disk.Props.C88_promoted_fails",
    "Verif.Disk.Props.C88_duplicate_fails",
    "Verif.Disk.Props.C88_buffered_fails"
   ],
   "note": "Holds without cache and work stealing for pages flushed since their last write. False in general: a page promoted by a read, a page overwritten with bytes another page has, and a page still in the write buffer read as old bytes."
  },
  {
   "property": "C89",
   "status": "partial",
   "theorems": [
    "Verif.Disk.Props.C89_survives_partial",
    "Verif.Disk.Props.C89_full_fails",
    "Verif.Disk.Props.C89_error_fails",
    "Verif.Disk.Props.C89_never_fails"
   ],
   "note": "Holds for one call at a time, if the write buffer has room for the flush threshold, the policy is not Never, and every call before the flush succeeded; later calls and I/O errors are arbitrary. Torn page writes are not modelled. False when the buffer fills up first, after a flush that met an I/O error, and with Never."
  },
  {
   "property": "C90",
   "status": "partial",
   "theorems": [
    "Verif.Disk.Props.C90_direct_partial",
    "Verif.Disk.Props.C90_writes_partial",
    "Verif.Disk.Props.C90_shutdown_partial",
    "Verif.Disk.Props.C90_read_fails",
    "Verif.Disk.Props.C90_batch_read_fails",
    "Verif.Disk.Props.C90_shutdown_fails"
   ],
   "note": "Holds without work stealing; with it for writes and flushes, and for the flush of a shutdown after calls that all succeeded. False in the default configuration for every read that misses the cache, every batch read of two pages, and a shutdown after a failed batch write."
  },
  {
   "property": "C91",
   "status": "proved",
   "theorems": [
    "Verif.Disk.Props.C91_read_integrity",
    "Verif.Disk.Props.C91_batch_integrity",
    "Verif.Disk.Props.C91_crash_integrity"
   ],
   "note": "One call at a time; evictions, admission, clock, drain order and I/O errors are arbitrary."
  },
  {
   "property": "C92",
   "status": "partial",
   "theorems": [
    "Verif.Disk.Props.C92_batch_is_reads_partial",
    "Verif.Disk.Props.C92_zero_fails",
    "Verif.Disk.Props.C92_stealing_fails"
   ],
   "note": "Holds without work stealing and with a batch size above 0. False with either."
  },
  {
   "property": "C93",
   "status": "partial",
   "theorems": [
    "Verif.Disk.Tasks.C93_apart_partial",
    "Verif.Disk.Tasks.C93_integrity_partial",
    "Verif.Disk.Tasks.C93_overlap_fails"
   ],
   "note": "Holds for flushes that do not overlap, any interleaving of writes; with overlaps only that a page holds something written to it. False in general: an older drained page can be written over a newer one."
  },
  {
   "property": "C94",
   "status": "proved",
   "theorems": [
    "Verif.PTree.C94_inserts_are_found",
    "Verif.PTree.C94_order_one_fails"
   ],
   "note": "Order at least 2; keys are integers (the only indexes that can be created); one insert at a time; the buffer pool has room and evicts no page of the tree. With an order below 2, which `init_with_order` accepts, inserts are lost."
  },
  {
   "property": "C95",
   "status": "proved",
   "theorems": [
    "Verif.PTree.C95_range_scan",
    "Verif.PTree.C95_size"
   ],
   "note": "As C94."
  },
  {
   "property": "C96",
   "status": "partial",
   "theorems": [
    "Verif.PTree.C96_removals_partial",
    "Verif.PTree.C96_removal_hangs_fails",
    "Verif.PTree.C96_keys_lost_fails"
   ],
   "note": "Holds for histories in which each removal leaves its leaf at least half full (or the leaf is the root). False in general: with the default order a removal after eleven inserts never returns, and a removal that moves entries between the two leaves of a small tree makes later inserts unfindable."
  },
  {
   "property": "C97",
   "status": "partial",
   "theorems": [
    "Verif.PTree.C97_other_pages_partial",
    "Verif.PTree.C97_leaf_evicted_fails",
    "Verif.PTree.C97_header_evicted_fails"
   ],
   "note": "Holds for evicted pages that are not on the way of the search. False in general: an evicted leaf or internal page panics when it is read again, and an evicted header page makes the index empty."
  },
  {
   "property": "C98",
   "status": "partial",
   "theorems": [
    "Verif.PTree.C98_interleavings_partial",
    "Verif.PTree.C98_two_inserts_partial",
    "Verif.PTree.C98_split_between_fails",
    "Verif.PTree.C98_empty_index_fails",
    "Verif.PTree.C98_root_overwritten_fails",
    "Verif.PTree.C98_count_fails"
   ],
   "note": "Holds for any number of threads and any schedule in which no page is made, split or emptied while another call is between its steps. False in general: a split in between, two inserts into an empty index, or a removal that read the header before a new root was made lose keys."
  },
  {
   "property": "C99",
   "status": "partial",
   "theorems": [
    "Verif.Catalog.C99_names_partial",
    "Verif.Catalog.C99_tables_apart",
    "Verif.Catalog.C99_tables_stay",
    "Verif.Catalog.C99_quoted_fails",
    "Verif.Catalog.C99_qualified_fails",
    "Verif.Catalog.C99_database_name_fails",
    "Verif.Catalog.C99_two_columns_fails",
    "Verif.Catalog.C99_ids_across_databases_fails"
   ],
   "note": "Names proved for one-part names without quotes and databases without white space; that tables keep apart and stay is proved for all statements. False of quoted names (CREATE, UPDATE and DELETE keep the quotes, SELECT and INSERT do not), of qualified names, of database names with spaces; two columns may have one name."
  },
  {
   "property": "C100",
   "status": "partial",
   "theorems": [
    "Verif.Catalog.C100_targets_exist_partial",
    "Verif.Catalog.C100_two_columns_fails",
    "Verif.Catalog.C100_self_reference_fails"
   ],
   "note": "Proved that kept foreign keys always refer to something. Full claim is false: a foreign key of several columns is dropped, and a table cannot refer to itself."
  },
  {
   "property": "C101",
   "status": "partial",
   "theorems": [
    "Verif.Catalog.C101_snapshot_partial",
    "Verif.Catalog.C101_tables_lost_fails",
    "Verif.Catalog.C101_pages_reused_fails",
    "Verif.Catalog.C101_snapshot_pages_reused_fails",
    "Verif.Catalog.C101_two_databases_fails"
   ],
   "note": "False: after every history a restart finds no table, and page numbers start again at 0. Proved: if the snapshot file is written by calling rebuild_from_system_catalog before the restart, the tables of a single database come back."
  },
  {
   "property": "C102",
   "status": "partial",
   "theorems": [
    "Verif.Catalog.C102_report_partial",
    "Verif.Catalog.C102_create_index_partial",
    "Verif.Catalog.C102_nothing_done_fails"
   ],
   "note": "Proved: an error means no change, a successful CREATE TABLE leaves the table, a CREATE INDEX under a new name adds the index. False of ALTER TABLE, CREATE VIEW, SAVEPOINT and the like, of CREATE INDEX under a taken name, CREATE DATABASE of an existing and USE of a missing database."
  },
  {
   "property": "C103",
   "status": "partial",
   "theorems": [
    "Verif.Catalog.C103_only_use_partial",
    "Verif.Catalog.C103_use_is_shared_fails"
   ],
   "note": "False: the database in use is shared by all clients. Proved: nothing but USE changes it."
  },
  {
   "property": "C104",
   "status": "partial",
   "theorems": [
    "Verif.Io.C104_linearizable_partial",
    "Verif.Io.C104_no_late_effect_partial",
    "Verif.Io.C104_cancelled_partial",
    "Verif.Io.C104_late_write_fails",
    "Verif.Io.C104_no_late_effect_fails",
    "Verif.Io.C104_huge_page_fails"
   ],
   "note": "Proved for all runs and page numbers below 2^52, except that a timed-out or cancelled call may take effect after its answer; proved that it does not without those, or when no worker had got past its check. False otherwise: an old write overwrites a newer successful one. Page numbers from 2^52 wrap around."
  },
  {
   "property": "C105",
   "status": "partial",
   "theorems": [
    "Verif.Io.C105_sync_partial",
    "Verif.Io.C105_sync_log_partial"
   ],
   "note": "Proved when every other write to the page was answered with success before (a write that timed out may be carried out later), and for logs that are only appended to."
  },
  {
   "property": "C106",
   "status": "partial",
   "theorems": [
    "Verif.Io.C106_priority_partial",
    "Verif.Io.C106_two_workers_fails",
    "Verif.Io.C106_starvation_fails"
   ],
   "note": "Proved for at most one worker. False of several workers, and low priorities can wait forever."
  },
  {
   "property": "C107",
   "status": "partial",
   "theorems": [
    "Verif.Io.C107_answered_partial",
    "Verif.Io.C107_timeout_partial",
    "Verif.Io.C107_cleared_fails"
   ],
   "note": "Proved as long as the queue is not cleared and no worker is stopped; in all other states the timeout check answers after 30 seconds, with an error."
  },
  {
   "property": "C108",
   "status": "partial",
   "theorems": [
    "Verif.Io.C108_append_partial",
    "Verif.Io.C108_disjoint_partial",
    "Verif.Io.C108_write_log_fails"
   ],
   "note": "Proved for logs shorter than 2^64 bytes that only appends write to; write_log overwrites appended bytes."
  },
  {
   "property": "C109",
   "status": "partial",
   "theorems": [
    "Verif.Plan.C109_from_partial",
    "Verif.Plan.C109_select_partial",
    "Verif.Plan.C109_order_by_input_partial",
    "Verif.Plan.C109_group_by_partial",
    "Verif.Plan.C109_comma_fails",
    "Verif.Plan.C109_no_on_fails",
    "Verif.Plan.C109_condition_fails",
    "Verif.Plan.C109_swapped_fails",
    "Verif.Plan.C109_same_side_fails",
    "Verif.Plan.C109_same_name_fails",
    "Verif.Plan.C109_alias_d_fails",
    "Verif.Plan.C109_group_by_fails"
   ],
   "note": "Proved for any tree of INNER, LEFT, RIGHT and FULL joins whose conditions are ANDs of `left column = right column` in this order, with names that no two tables without alias share (when qualified) and no column `d.id` that is not first; RIGHT and FULL with the restrictions of C43; GROUP BY by qualified or unqualified names whose last parts differ, and aggregates without GROUP BY. Missing, because false of the code: commas, CROSS, NATURAL and USING joins and all other conditions (refused), operands in the other order (error), both operands of one side, a name shared by tables without alias, the alias `d`, and two GROUP BY columns of the same name (wrong answers). Derived tables are not modelled."
  },
  {
   "property": "C110",
   "status": "partial",
   "theorems": [
    "Verif.Plan.C110_no_from_partial",
    "Verif.Plan.C110_exists_fails",
    "Verif.Plan.C110_in_fails",
    "Verif.Plan.C110_in_empty_fails",
    "Verif.Plan.C110_scalar_fails",
    "Verif.Plan.C110_refused_fails"
   ],
   "note": "Proved for EXISTS and IN over subqueries without a FROM. Missing, because false of the code: every subquery with a FROM. Its table and its WHERE are ignored and its SELECT item is evaluated on the outer row; comparisons with subqueries never keep a row; SELECT * is refused. Function calls in the subquery and FROM items that are not tables are not modelled."
  },
  {
   "property": "C111",
   "status": "partial",
   "theorems": [
    "Verif.Time.C111_floor_partial",
    "Verif.Time.C111_ceil_partial",
    "Verif.Time.C111_ceil_fails",
    "Verif.Time.C111_2038_fails",
    "Verif.Time.C111_units_fails"
   ],
   "note": "Proved for FLOOR, for months and years below 2^31 seconds; CEIL for timestamps that are not themselves a boundary. Missing, because false of the code: CEIL of a boundary (moved to the next one), months and years from 2038 on, and units such as WEEK or QUARTER (no error at planning; a panic for WEEK)."
  },
  {
   "property": "C112",
   "status": "partial",
   "theorems": [
    "Verif.Time.C112_extract_partial",
    "Verif.Time.C112_timestamp_fails",
    "Verif.Time.C112_sunday_fails",
    "Verif.Time.C112_epoch_fails"
   ],
   "note": "Proved for text operands and all fields but WEEK and TIMEZONE, given a right `chrono`. Missing, because false of the code: TIMESTAMP operands (always an error), Sundays as day of the week (7), epochs from 2038 on (wrapped). ISO weeks are chrono's and not modelled."
  },
  {
   "property": "C113",
   "status": "partial",
   "theorems": [
    "Verif.Time.C113_timestamp_partial",
    "Verif.Time.C113_date_partial",
    "Verif.Time.C113_time_partial",
    "Verif.Time.C113_before_1970_fails",
    "Verif.Time.C113_digits"
   ],
   "note": "Proved for dates from 1970 to 9999, given a right `chrono`. Missing, because false of the code: dates before 1970 wrap to huge values and compare as later than all others."
  },
  {
   "property": "C114",
   "status": "partial",
   "theorems": [
    "Verif.Sql.C114_cast_partial",
    "Verif.Sql.C114_refused_fails",
    "Verif.Sql.C114_literal_fails",
    "Verif.Sql.C114_length_fails",
    "Verif.Sql.C114_saturates_fails",
    "Verif.Sql.C114_join_fails"
   ],
   "note": "Proved for the pairs of types the code supports outside join conditions, with exact rounding. False otherwise: every other pair is refused (small whole-number literals to INTEGER included), lengths are ignored, numbers out of range saturate and a join condition truncates instead of rounding."
  },
  {
   "property": "C115",
   "status": "partial",
   "theorems": [
    "Verif.Sql.C115_case_partial",
    "Verif.Sql.C115_other_fails",
    "Verif.Sql.C115_number_fails"
   ],
   "note": "UPPER and LOWER proved for ASCII text and NULL. False for every other function: none has a value. Text outside ASCII is not modelled."
  },
  {
   "property": "C116",
   "status": "partial",
   "theorems": [
    "Verif.Disk.C116_compression_partial",
    "Verif.Disk.C116_none_fails"
   ],
   "note": "Proved for LZ4 and Zstd given that the libraries are lossless, and for data stored with no compression that contains no byte 255 and does not begin with a compressor's mark. False of other data stored with no compression: the decoder reinterprets it. The errors of the Zstd encoder are not modelled."
  },
  {
   "property": "C117",
   "status": "partial",
   "theorems": [
    "Verif.Mvcc.C117_serializable_partial",
    "Verif.Mvcc.C117_write_skew_fails"
   ],
   "note": "Proved for all logs of the histories described by RunOk in which no row that an updating transaction read is changed by another one that commits before it; read-only transactions are unrestricted. False otherwise: write skew is accepted at every level."
  },
  {
   "property": "C118",
   "status": "partial",
   "theorems": [
    "Verif.Sql.C118_element_partial",
    "Verif.Sql.C118_slice_partial",
    "Verif.Sql.C118_slice_element_partial",
    "Verif.Sql.C118_fails"
   ],
   "note": "Proved for indexes and bounds of 32 bits other than -2^31, and slices that end within the array. False otherwise: a slice beyond the end is empty, an index of 2^32 is element 0, a NULL index is an error, a second subscript is refused, and STRUCT fields cannot be reached by name."
  },
  {
   "property": "C119",
   "status": "partial",
   "theorems": [
    "Verif.Sql.Regex.C119_similar_partial",
    "Verif.Sql.Regex.C119_not_partial",
    "Verif.Sql.Regex.C119_fails"
   ],
   "note": "Proved for VARCHAR without line feeds and patterns of characters, %, _, escapes and brackets that list characters, given that the regex crate reads that part of its syntax as documented. False of NULL, line feeds, operators, ranges, negated brackets, CHAR values and an empty escape."
  },
  {
   "property": "C120",
   "status": "partial",
   "theorems": [
    "Verif.Sql.C120_convert_partial",
    "Verif.Sql.C120_fails",
    "Verif.Sql.C120_collate_fails"
   ],
   "note": "Proved for whole numbers, digits, NULL, character sets, and that TRY_CONVERT never fails. False of fractions: they are cut off where CAST rounds, and saturate."
  },
  {
   "property": "C121",
   "status": "partial",
   "theorems": [
    "Verif.Direct.C121_write",
    "Verif.Direct.C121_read",
    "Verif.Direct.C121_round_trip",
    "Verif.Direct.C121_refused",
    "Verif.Direct.C121_read_refused",
    "Verif.Direct.C121_aligned_partial",
    "Verif.Direct.C121_succeeds_partial",
    "Verif.Direct.C121_tail_fails",
    "Verif.Direct.C121_short_fails",
    "Verif.Direct.C121_panics_fails"
   ],
   "note": "Exactness, round trip and refusal are proved for every script of the operating system. Alignment of the calls only if transfers are multiples of the alignment, and success of a direct read only if the file goes on to the next multiple: both are false otherwise."
  },
  {
   "property": "C122",
   "status": "partial",
   "theorems": [
    "Verif.Coalesce.C122_bounded_latest",
    "Verif.Coalesce.C122_oldest_dropped",
    "Verif.Coalesce.C122_expired_partial",
    "Verif.Coalesce.C122_cleanup_count",
    "Verif.Coalesce.C122_adjacent",
    "Verif.Coalesce.C122_live_dropped_fails"
   ],
   "note": "All but one part is proved for every history. C122_cleanup_count gives the exact number of pages a cleanup without memory pressure leaves. False: a cleanup also removes pages that have not expired, when nothing is short."
  },
  {
   "property": "C123",
   "status": "partial",
   "theorems": [
    "Verif.Dml.C123_statements_partial",
    "Verif.Dml.C123_rollback_fails",
    "Verif.Dml.C123_restart_fails"
   ],
   "note": "Proved for every history of statements of one client on a created table whose rollbacks succeed and whose WHERE clauses have a truth value or an error on each row. Missing: INSERT ... SELECT, clients at the same time. False when a rollback has no space for the longer old row, and for tables read back at a restart."
  },
  {
   "property": "C124",
   "status": "partial",
   "theorems": [
    "Verif.Sql.C124_value_partial",
    "Verif.Sql.C124_evaluates_partial",
    "Verif.Sql.C124_accepts_partial",
    "Verif.Sql.C124_refused_fails",
    "Verif.Sql.C124_overflow_fails",
    "Verif.Sql.C124_char_fails",
    "Verif.Sql.C124_columns_partial",
    "Verif.Sql.C124_errors_partial",
    "Verif.Sql.C124_where_fails"
   ],
   "note": "Proved over BOOLEAN, integer and VARCHAR columns: an accepted expression that evaluates has SQL's value, with exact conditions for acceptance and for evaluation. Missing: decimals, dates, functions, LIKE, simple CASE, items of IN that are not literals. False in full: NULL operands are refused or are errors, literals have the narrowest type (100 + 100 overflows), CASE results must have one width, IN on a CHAR column is never TRUE. C124_errors_partial: where it cannot be computed, the expression is an error, unless a minus overflows (then the code panics)."
  },
  {
   "property": "C125",
   "status": "partial",
   "theorems": [
    "Verif.Dml.C125_transactions_partial",
    "Verif.Dml.C125_insert_delete_fails",
    "Verif.Dml.C125_update_delete_fails",
    "Verif.Dml.C125_half_fails",
    "Verif.Dml.C125_update_twice_fails"
   ],
   "note": "Proved for every history of one client on a new table: statements act one after another on the rows as the transaction left them, commit keeps them and rollback restores the rows at the begin, provided the transaction has not deleted a row it had written itself. A statement that fails in a transaction keeps its part, which the specification allows (_half_fails); an UPDATE of an own row is refused (_update_twice_fails); a rollback after a DELETE of an own row brings it back (_insert_delete_fails, _update_delete_fails). Other clients at the same time, transaction number 0 and rollbacks on full pages are left out."
  },
  {
   "property": "C126",
   "status": "partial",
   "theorems": [
    "Verif.Exec.C126_top_per_group_partial",
    "Verif.Exec.C126_null_fails",
    "Verif.Exec.C126_panic_fails",
    "Verif.Exec.C126_input_error_fails"
   ],
   "note": "Proved for every input that ends without an error, every n, integer sort keys of any integer types and group keys of any type (ascending order of groups for integer group keys). With NULL sort keys the rows kept depend on the order of the input (_null_fails); a key that fails to evaluate is a panic (_panic_fails); when the input fails the result is empty without an error (_input_error_fails)."
  },
  {
   "property": "C127",
   "status": "partial",
   "theorems": [
    "Verif.Exec.C127_row_number_partial",
    "Verif.Exec.C127_second_fails",
    "Verif.Exec.C127_rank_fails",
    "Verif.Exec.C127_none_fails",
    "Verif.Exec.C127_input_error_fails"
   ],
   "note": "Proved for every input that ends without an error and has fewer than 2^31 rows, for any number of ROW_NUMBER functions over the same partition and order, with integer sort keys. A second function is numbered by the partition of the first (_second_fails); every other function is an error (_rank_fails); no function is a panic (_none_fails); a failing input gives an empty result without an error (_input_error_fails)."
  },
  {
   "property": "C128",
   "status": "partial",
   "theorems": [
    "Verif.Dml.C128_types",
    "Verif.Dml.C128_expression_partial",
    "Verif.Dml.C128_insert_partial",
    "Verif.Dml.C128_precision_partial",
    "Verif.Dml.C128_refused_partial",
    "Verif.Dml.C128_varchar_fails",
    "Verif.Dml.C128_char_fails",
    "Verif.Dml.C128_unsigned_fails",
    "Verif.Dml.C128_decimal_fails",
    "Verif.Dml.C128_int128_fails",
    "Verif.Dml.C128_dec_fails",
    "Verif.Dml.C128_unsupported"
   ],
   "note": "Proved for booleans, signed integers of 8, 16, 32 and 64 bits and texts without a limit; C128_types shows that among the booleans, integers, texts and decimals these are the only declared types a column holds as written. Lengths, unsigned ranges, 24, 128 and 256 bit ranges and precisions are not enforced (_fails). Types of dates, times, binaries and structures have no specification here. UPDATE does not cast (C80_update_fails)."
  },
  {
   "property": "C129",
   "status": "partial",
   "theorems": [
    "Verif.Pool.C129_alone",
    "Verif.Pool.C129_finish_partial",
    "Verif.Pool.C129_eviction_fails",
    "Verif.Pool.C129_drop_fails",
    "Verif.Pool.C129_locked_page_fails",
    "Verif.Pool.C129_batch_fails",
    "Verif.Pool.C129_same_page_fails"
   ],
   "note": "Proved for all schedules when there are as many free frames as the calls may need and no caller keeps a page locked during a call. False in full, one schedule each: a call that must evict against a fetch or a dropped guard, a caller that keeps a page locked while it fetches another (as insert of the paged index does), the batch flush, a page fetched by who has it locked."
  },
  {
   "property": "C130",
   "status": "partial",
   "theorems": [
    "Verif.Pool.C130_books_partial",
    "Verif.Pool.C130_guards_partial",
    "Verif.Pool.C130_same_page_partial",
    "Verif.Pool.C130_in_use_fails",
    "Verif.Pool.C130_two_frames_fails",
    "Verif.Pool.C130_deleted_fails",
    "Verif.Pool.C130_flush_fails",
    "Verif.Pool.C130_flush_other_fails"
   ],
   "note": "Proved for all schedules when there are enough free frames and a page that is deleted or not in memory is fetched and deleted by one thread only. False in full, one schedule each: a fetch tells the replacer before it pins, so a page in use can be evicted; two fetches put a page into two frames; a page is deleted while it is fetched; a flush clears the dirty flag of bytes it did not write; a flush writes the bytes of another page. Missing from the proved part: pages created during the run and fetched by others, calls that evict."
  },
  {
   "property": "C131",
   "status": "partial",
   "theorems": [
    "Verif.Wal.C131_size_partial",
    "Verif.Wal.C131_size_fails"
   ],
   "note": "Proved for every record as the constructors make it. False after the log manager numbers it: the number is encoded in fewer bytes than the placeholder and the size is not refreshed."
  },
  {
   "property": "C132",
   "status": "partial",
   "theorems": [
    "Verif.Sql.C132_shown_partial",
    "Verif.Sql.C132_distinct_partial",
    "Verif.Sql.C132_array_partial",
    "Verif.Sql.C132_char_width",
    "Verif.Sql.C132_null_fails",
    "Verif.Sql.C132_char_space_fails",
    "Verif.Sql.C132_char_long_fails",
    "Verif.Sql.C132_date_fails",
    "Verif.Sql.C132_interval_fails",
    "Verif.Sql.C132_array_fails",
    "Verif.Sql.C132_enum_fails"
   ],
   "note": "Proved for booleans, integers, timestamps, texts, dates from 1970 to 9999, times, intervals, bytes, and arrays of integers and NULLs. False of the text NULL, CHAR texts that end with a space or have more than 255 characters, dates before 1970 (shown as invalid), the least interval, arrays of texts and enumerations. Floats, points and structures are not claimed."
  },
  {
   "property": "C133",
   "status": "partial",
   "theorems": [
    "Verif.Sql.C133_round_trip_partial",
    "Verif.Sql.C133_size_partial",
    "Verif.Sql.C133_null_partial",
    "Verif.Sql.C133_null_fails",
    "Verif.Sql.C133_array_fails",
    "Verif.Sql.C133_size_fails"
   ],
   "note": "Proved for all values but NULL, arrays, enumerations and structures, sizes for all of these but UUIDs; NULL comes back in columns whose values take more than one byte. False of NULL in the other columns (it becomes false, 0 or a zero byte) and of arrays and enumerations, which come back empty. UTF-8 validity is a parameter."
  },
  {
   "property": "C134",
   "status": "partial",
   "theorems": [
    "Verif.Locks.C134_table_lock_granted_partial",
    "Verif.Locks.C134_row_lock_granted_partial",
    "Verif.Locks.C134_upgrade_under_way_fails",
    "Verif.Locks.C134_weaker_lock_fails"
   ],
   "note": "Proved when no upgrade of another transaction is marked on the table or row. False after a refused upgrade, which leaves the mark; and a holder of X that asks for IS loses X."
  },
  {
   "property": "C135",
   "status": "partial",
   "theorems": [
    "Verif.Whole.C135_history_partial",
    "Verif.Whole.C135_width"
   ],
   "note": "The hypotheses are those of C125 (constants in INSERT, WHERE has a truth value on every row, no rollback of a DELETE of the transaction's own rows, rollbacks restore every row) and, for what a SELECT answers, those of C109. Without indexes, views, DDL and other clients."
  },
  {
   "property": "C136",
   "status": "partial",
   "theorems": [
    "Verif.Sql.C136_decimal_partial",
    "Verif.Sql.C136_float_partial",
    "Verif.Sql.C136_exact",
    "Verif.Sql.C136_integer",
    "Verif.Sql.C136_negate",
    "Verif.Sql.C136_zero",
    "Verif.Sql.C136_special",
    "Verif.Sql.C136_big_integer_fails",
    "Verif.Sql.C136_integer_float_fails",
    "Verif.Sql.C136_join_fails"
   ],
   "note": "Proved for all operands but integers of more than 53 bits (24 with FLOAT), which are rounded before the operation; witnesses that the claim is then false. Join conditions exchange the operands of a DECIMAL on the left of an integer."
  },
  {
   "property": "C137",
   "status": "partial",
   "theorems": [
    "Verif.Whole.C137_clients_partial",
    "Verif.Whole.C137_select_all",
    "Verif.Whole.C137_dirty_read_fails"
   ],
   "note": "Requests are handled one at a time; the other hypotheses are those of C135. For tables in use by another client the property is false: a SELECT shows uncommitted rows (C137_dirty_read_fails)."
  },
  {
   "property": "C138",
   "status": "partial",
   "theorems": [
    "Verif.HeapConc.C138_history_partial",
    "Verif.HeapConc.C138_inserts_partial",
    "Verif.HeapConc.C138_scan_partial",
    "Verif.HeapConc.C138_checked_write_fails",
    "Verif.HeapConc.C138_snapshot_fails"
   ],
   "note": "For scans every page must be readable. In full the property is false: `delete_tuple` and `update_tuple` check the row and write it in separate critical sections (C138_checked_write_fails), and a scan is not of one moment (C138_snapshot_fails)."
  },
  {
   "property": "C139",
   "status": "partial",
   "theorems": [
    "Verif.Sql.C139_text",
    "Verif.Sql.C139_boolean",
    "Verif.Sql.C139_words",
    "Verif.Sql.C139_number_partial",
    "Verif.Sql.C139_timestamp",
    "Verif.Sql.C68_timestamp_fails"
   ],
   "note": "Text, booleans and numbers to timestamps are proved in full. A timestamp from 2^63 on cast to BIGINT is negative (C68_timestamp_fails)."
  },
  {
   "property": "C140",
   "status": "partial",
   "theorems": [
    "Verif.Time.C140_trunc_partial",
    "Verif.Time.C140_trunc_again_partial",
    "Verif.Time.C140_part_partial",
    "Verif.Time.C140_make_timestamp_partial",
    "Verif.Time.C140_make_date_partial",
    "Verif.Time.C140_year_fails",
    "Verif.Time.C140_panic_fails",
    "Verif.Time.C140_dow_fails",
    "Verif.Time.C140_epoch_fails",
    "Verif.Time.C140_make_time_fails",
    "Verif.Time.C140_make_null_fails"
   ],
   "note": "Proved for years 0 to 9999 without fractions of a second, given a right `chrono`. False of the code: years are truncated to the day, quarters panic on the 31st of May, decades and centuries on leap days when they do not begin with a leap year, days of the week count from Monday, epochs wrap in 2038, make_time is always an error, NULL is a panic."
  },
  {
   "property": "C141",
   "status": "partial",
   "theorems": [
    "Verif.Time.C141_shift_partial",
    "Verif.Time.C141_sides",
    "Verif.Time.C141_back_partial",
    "Verif.Time.C141_difference_partial",
    "Verif.Time.C141_months_fails",
    "Verif.Time.C141_text_difference_fails",
    "Verif.Time.C141_left_fails",
    "Verif.Time.C141_big_fails"
   ],
   "note": "Proved for days, hours, minutes and seconds, and the way back for all intervals, within the years 0 to 9999. False of the code: a month is 30 days and a year 365, the difference of a moment and a moment given as text is an error, an interval on the left of a text is an error, numbers from 2^63 on count as 0."
  },
  {
   "property": "C142",
   "status": "partial",
   "theorems": [
    "Verif.Whole.C142_session_partial"
   ],
   "note": "Proved for one client, one database, names of one part without quotes (others: C99_quoted_fails), without indexes. Missing what is missing in C135. A CREATE TABLE stays after a ROLLBACK (C84_create_table_stays_fails), and the specification says so."
  },
  {
   "property": "C143",
   "status": "partial",
   "theorems": [
    "Verif.Whole.C143_session_partial"
   ],
   "note": "Proved for well-typed statements, tables named without quotes, columns given by their place; an INSERT may list a column twice, which is no error and stores the first value; UPDATE assigns values of the type of the column or NULL (others: C80); a row on which WHERE cannot be computed is left out, and no minus overflows in it; a SELECT an item of which cannot be computed on a row it keeps may answer anything; ORDER BY names columns, each selected at most once. GROUP BY with different columns, or none, and aggregates with different functions (C73), whose sums stay within the type of the column (C45), COUNT(x) without NULLs, no SUM of no rows without GROUP BY; no AVG, no HAVING. DISTINCT, ordered by items that are columns or not at all, for items that are not TINYINT or SMALLINT and rows Ferrite tells apart (C42). FROM is a table or any number of JOINs and LEFT, RIGHT and FULL JOINs (for the last two, when the left side has a row and the rows of the right side are different), each on one or more pairs of a column of the tables before it and one of the new table, of the same family of types, when no two of the tables have a column of the same name (C109). Missing what is missing in C142, joins with other conditions, HAVING, and DISTINCT ordered by an item that is not a column with syntax trees."
  },
  {
   "property": "C144",
   "status": "partial",
   "theorems": [
    "Verif.Exec.C144_rows",
    "Verif.Exec.C144_scan",
    "Verif.Exec.C144_index_partial",
    "Verif.Exec.C144_equal_partial",
    "Verif.Exec.C144_index_fails",
    "Verif.Exec.C144_left_fails",
    "Verif.Exec.C144_child_fails",
    "Verif.Exec.C144_predicate_fails",
    "Verif.Exec.C144_error_fails",
    "Verif.Exec.C144_condition_fails"
   ],
   "note": "Proved for inner joins over a table without a suitable index and through an index that covers the matching rows (for equalities of integers of one type: an index on that column that finds equal keys). False for an index on another column with the same number of columns, for outer joins, for right sides that are not plain scans; errors of the right side and of the condition are dropped."
  },
  {
   "property": "C145",
   "status": "partial",
   "theorems": [
    "Verif.Constraint.C145_not_null",
    "Verif.Constraint.C145_unique",
    "Verif.Constraint.C145_unique_only",
    "Verif.Constraint.C145_check_partial",
    "Verif.Constraint.C145_primary_partial",
    "Verif.Constraint.C145_foreign",
    "Verif.Constraint.C145_primary_fails",
    "Verif.Constraint.C145_primary_null_fails",
    "Verif.Constraint.C145_composite_fails",
    "Verif.Constraint.C145_reserved_fails",
    "Verif.Constraint.C145_check_fails",
    "Verif.Constraint.C145_check_other_fails",
    "Verif.Constraint.C145_default_fails"
   ],
   "note": "NOT NULL, UNIQUE and foreign keys proved. Primary keys only for two tuples one after the other, CHECK only for three texts; the rest is false: the keys 1, 2, 1 are accepted, keys of several columns and other CHECK texts are not checked, a refused tuple reserves its UNIQUE values, defaults are not filled in. The engine itself does not use this validator."
  },
  {
   "property": "C146",
   "status": "partial",
   "theorems": [
    "Verif.Whole.C146_network_partial",
    "Verif.Whole.C146_count_fails",
    "Verif.Whole.C146_spaces_fails",
    "Verif.Whole.C146_behind_fails"
   ],
   "note": "Proved for requests that come in one read and responses of at most 4096 bytes, and under the assumptions of C143. False otherwise: after a request cut in two the client is one response behind, and may be told that a COMMIT failed that did not; `DELETE  FROM` with two spaces is refused; the number of changed rows is never sent."
  },
  {
   "property": "C147",
   "status": "partial",
   "theorems": [
    "Verif.HashPage.C147_sequential_partial",
    "Verif.HashPage.C147_slots_partial",
    "Verif.HashPage.C147_values_partial",
    "Verif.HashPage.C147_calm",
    "Verif.HashPage.C147_writer_partial",
    "Verif.HashPage.C147_found_partial",
    "Verif.HashPage.C147_reuse_fails",
    "Verif.HashPage.C147_keys_fails",
    "Verif.HashPage.C147_poison_fails",
    "Verif.HashPage.C147_size_fails",
    "Verif.HashPage.C147_fits_partial",
    "Verif.HashPage.C147_fits_fails",
    "Verif.HashPage.C147_race_fails",
    "Verif.HashPage.C147_torn_fails"
   ],
   "note": "Proved for calls one after another, and for threads if each slot is changed by one thread, or only one thread inserts. False otherwise: two threads that insert can both hear `true` and lose a pair; a reader can pair one key with another value; a page never reuses the place of a removed pair; a second value for a key is refused; a slot number that does not exist poisons the lock."
  },
  {
   "property": "C148",
   "status": "partial",
   "theorems": [
    "Verif.HashPage.C148_image",
    "Verif.HashPage.C148_masks",
    "Verif.HashPage.C148_store",
    "Verif.HashPage.C148_depths",
    "Verif.HashPage.C148_double",
    "Verif.HashPage.C148_total",
    "Verif.HashPage.C148_image_fails",
    "Verif.HashPage.C148_shrink_fails",
    "Verif.HashPage.C148_size_fails",
    "Verif.HashPage.C148_verify_fails"
   ],
   "note": "Storing, split images, masks and doubling are proved. False: `can_shrink` never says yes; a bucket of local depth 0 has no split image but a panic; the global depth can grow beyond the 512 entries; `verify_integrity` checks nothing."
  },
  {
   "property": "C149",
   "status": "partial",
   "theorems": [
    "Verif.Coalesce.Size.C149_ranges_partial",
    "Verif.Coalesce.Size.C149_runs_unique",
    "Verif.Coalesce.Size.C149_gaps_partial",
    "Verif.Coalesce.Size.C149_validate",
    "Verif.Coalesce.Size.C149_analysis_partial",
    "Verif.Coalesce.Size.C149_alone",
    "Verif.Coalesce.Size.C149_padding",
    "Verif.Coalesce.Size.C149_twice_fails",
    "Verif.Coalesce.Size.C149_far_fails",
    "Verif.Coalesce.Size.C149_total_fails"
   ],
   "note": "Proved for different pages that span less than 2^39 pages with less than 2^52 bytes. False otherwise: a page listed twice becomes two overlapping ranges, a gap of 2^52 pages panics or counts as none, and the new data count as data but not in the total, which can be less than the data."
  },
  {
   "property": "C150",
   "status": "partial",
   "theorems": [
    "Verif.Metrics.C150_counters",
    "Verif.Metrics.C150_cache",
    "Verif.Metrics.C150_average",
    "Verif.Metrics.C150_percentile_partial",
    "Verif.Metrics.C150_extremes_partial",
    "Verif.Metrics.C150_max_recorded",
    "Verif.Metrics.C150_reset",
    "Verif.Metrics.C150_health",
    "Verif.Metrics.C150_health_mono",
    "Verif.Metrics.C150_batch_fails",
    "Verif.Metrics.C150_max_fails",
    "Verif.Metrics.C150_rate_fails",
    "Verif.Metrics.C150_errors_fails",
    "Verif.Metrics.C150_failed_fails"
   ],
   "note": "Counters, averages, resets and the range of the health score are proved for every schedule; percentiles without batches and flushes; the extremes for one thread. False otherwise: batches are in no bucket, so that percentiles fall to 0 or the maximum; two threads can lose the maximum; rates after a reset divide by the time since the start; a page read from the disk counts as an error and a failed read as none."
  }
 ]
}
{"id": "C01", "title": "Buffer replacer never evicts a protected frame and never misses an evictable one", "statement": "After any sequence of record_access / set_evictable / remove / evict calls, evict() returns Some(f) only for a frame f that is tracked and whose last set_evictable made it evictable, and returns None only when no tracked frame is evictable.", "quantifier": "all sequences of replacer calls of any length over any frame ids and any k", "why_tests_cant": "A test exercises a handful of interleavings of a few frames; the claim is about every history of the replacer.", "anchors": ["src/buffer/lru_k_replacer.rs: LRUKReplacer::evict, record_access, set_evictable, remove"]}
{"id": "C02", "title": "Buffer replacer chooses the LRU-K victim", "statement": "The frame returned by evict() has fewer than K recorded accesses if any evictable frame does; among those it has the fewest accesses and, among equals, the oldest first access; otherwise it is the evictable frame whose K-th most recent access is oldest.", "quantifier": "all reachable replacer states", "why_tests_cant": "The victim rule ranges over all access histories; tests sample a few.", "anchors": ["src/buffer/lru_k_replacer.rs: LRUKReplacer::evict"]}
{"id": "C03", "title": "FIFO cache is a bounded map evicting in insertion order", "statement": "For every call sequence the FIFO cache never holds more than its capacity, get returns the last value inserted for a key still present, re-inserting a present key replaces its value without changing its age, and the entry dropped by an insert into a full cache (or returned by pop_oldest) is the one inserted earliest.", "quantifier": "all call sequences, keys, values and capacities", "why_tests_cant": "Eviction order bugs depend on long histories with removals and re-insertions.", "anchors": ["src/storage/disk/async_disk/cache/fifo.rs: FIFOCache"]}
{"id": "C04", "title": "LFU cache evicts a least frequently used entry and counts uses exactly", "statement": "An entry's frequency equals the number of inserts-as-new (1) plus gets and explicit increments since then; insert into a full cache and pop_lfu remove an entry of minimal frequency; capacity is never exceeded.", "quantifier": "all call sequences, keys, values, capacities and hash iteration orders", "why_tests_cant": "Depends on every history and on unspecified hash map iteration order.", "anchors": ["src/storage/disk/async_disk/cache/lfu.rs: LFUCache"]}
{"id": "C05", "title": "Heap-based LFU cache behaves as an LFU cache", "statement": "Although it keeps stale heap entries, the heap LFU cache evicts a minimum-frequency live entry, never returns or counts a stale entry, and never holds more than its capacity entries.", "quantifier": "all call sequences, keys, values and capacities (including 0)", "why_tests_cant": "Lazy deletion correctness is a property of arbitrary interleavings of updates and pops.", "anchors": ["src/storage/disk/async_disk/cache/heap_lfu.rs: HeapLFUCache"]}
{"id": "C06", "title": "LRU cache evicts the least recently used entry", "statement": "The pointer-linked LRU cache behaves as an ordered list: get/insert/touch move the key to the most-recent end, peek and contains do not, insert into a full cache and pop_lru remove the entry whose last use is oldest, and the list and the map always agree.", "quantifier": "all call sequences, keys, values and capacities", "why_tests_cant": "Doubly linked list corruption shows only for particular long histories.", "anchors": ["src/storage/disk/async_disk/cache/lru.rs: LRUCore"]}
{"id": "C07", "title": "Record identifiers survive their encodings", "statement": "Deserialising the 12-byte form of a RID gives back the same RID with nothing else accepted as that RID; packing to i64 and back is the identity whenever packing succeeds, and packing fails exactly when the page id does not fit.", "quantifier": "all page ids and slot numbers", "why_tests_cant": "2^96 values.", "anchors": ["src/common/rid.rs: RID::to_bytes_le, try_deserialize, to_i64, from_i64"]}
{"id": "C08", "title": "Garbage-collection watermark never passes an active reader", "statement": "At every point the watermark is at most the read timestamp of every registered (not yet unregistered) transaction, equals the smallest such timestamp when one exists, and is at most the next timestamp to be handed out otherwise.", "quantifier": "all sequences of register / unregister / commit-timestamp calls", "why_tests_cant": "An active-set property over all histories.", "anchors": ["src/concurrency/watermark.rs: Watermark::add_txn, remove_txn, get_watermark, update_commit_ts"]}
{"id": "C09", "title": "Timestamps are unique and increasing, and the watermark never moves back", "statement": "No timestamp is handed out twice, each timestamp handed out is larger than every earlier one, and (when transactions are registered with freshly issued timestamps) the watermark never decreases.", "quantifier": "all call sequences", "why_tests_cant": "Uniqueness over unbounded histories.", "anchors": ["src/concurrency/watermark.rs: get_next_ts, get_next_ts_and_register, update_watermark"]}
{"id": "C10", "title": "Lock modes conflict as documented", "statement": "Two transactions may hold locks on the same table together only if the modes are compatible in the standard IS/IX/S/SIX/X matrix; the matrix is symmetric.", "quantifier": "all reachable lock tables", "why_tests_cant": "Mutual exclusion must hold for every interleaving of lock and unlock calls.", "anchors": ["src/concurrency/lock_manager.rs: LockCompatibilityChecker::are_compatible, compatible_with_existing_locks"]}
{"id": "C11", "title": "Table locks exclude each other across transactions", "statement": "After any sequence of lock_table / unlock calls, two different transactions never both hold granted, incompatible locks on the same table, including when a transaction upgrades its own lock.", "quantifier": "all interleavings of lock, upgrade and unlock calls by any number of transactions", "why_tests_cant": "Interleavings are unbounded.", "anchors": ["src/concurrency/lock_manager.rs: LockState::compatible_with_existing_locks, grant_lock, LockStateManager::grant_table_lock, grant_waiting_locks"]}
{"id": "C12", "title": "Row locks exclude each other across transactions", "statement": "After any sequence of lock_row / unlock_row calls an exclusive row lock is never held together with any other transaction's lock on that row.", "quantifier": "all interleavings of row lock and unlock calls by any number of transactions", "why_tests_cant": "Interleavings are unbounded.", "anchors": ["src/concurrency/lock_manager.rs: LockManager::lock_row, unlock_row"]}
{"id": "C13", "title": "Deadlock detection reports exactly the deadlocks, and the victim is on the cycle", "statement": "The detector reports a victim if and only if the waits-for graph has a cycle, and the victim it reports lies on a cycle.", "quantifier": "all waits-for graphs", "why_tests_cant": "Graph shapes are unbounded.", "anchors": ["src/concurrency/lock_manager.rs: DeadlockDetector::find_cycle_in_graph, dfs_cycle"]}
{"id": "C14", "title": "A transaction sees its own writes and, otherwise, only versions committed before it began", "statement": "The visibility decision for a tuple version returns visible exactly when the version is the reader's own undeleted write or was committed at or before the reader's read timestamp (for snapshot-based levels), for every isolation level's documented rule.", "quantifier": "all tuple metadata, readers, isolation levels and watermarks", "why_tests_cant": "The decision table ranges over unbounded timestamps.", "anchors": ["src/storage/table/tuple.rs: TupleMeta::visibility_status, is_visible_to", "src/concurrency/transaction.rs: Transaction::is_tuple_visible"]}
{"id": "C15", "title": "Snapshot reads return the newest version committed before the snapshot", "statement": "Walking a row's undo chain for a reader returns the newest version whose commit timestamp is at most the reader's read timestamp, or reports that no such version exists.", "quantifier": "all version chains of any length", "why_tests_cant": "Chains are unbounded.", "anchors": ["src/storage/table/transactional_table_heap.rs: get_visible_version, get_tuple"]}
{"id": "C16", "title": "Rollback restores every row the transaction changed", "statement": "After abort, every row the transaction inserted is invisible to all, and every row it updated or deleted has the value and visibility it had before the transaction's first change.", "quantifier": "all write histories of the aborted transaction", "why_tests_cant": "Depends on how many times and in what order rows were modified.", "anchors": ["src/concurrency/transaction_manager.rs: TransactionManager::abort"]}
{"id": "C17", "title": "Finished transactions are forgotten only when no reader can need them", "statement": "Pruning completed transactions never drops a running transaction, nor a committed one whose commit timestamp some active or future reader may still have to look past.", "quantifier": "all transaction tables and watermarks", "why_tests_cant": "Unbounded table contents.", "anchors": ["src/concurrency/transaction_manager.rs: prune_completed_transactions, garbage_collection"]}
{"id": "C18", "title": "Committed state appears atomically to new snapshots", "statement": "A transaction that begins at any moment during another's commit sees either all of that transaction's writes or none of them, and keeps seeing the same throughout.", "quantifier": "all interleavings of a commit's steps with begins and reads", "why_tests_cant": "Needs every interleaving point of the commit procedure.", "anchors": ["src/concurrency/transaction_manager.rs: commit", "src/concurrency/transaction.rs: Transaction::commit"]}
{"id": "C19", "title": "Extendible hash directory stays well formed under splits", "statement": "After any sequence of successful directory splits every directory slot's local depth is at most the global depth, slots that agree on their low local-depth bits point to the same bucket page with the same local depth, and slots that do not, do not share a bucket.", "quantifier": "all split sequences from a fresh directory", "why_tests_cant": "Invariant over all histories.", "anchors": ["src/storage/page/page_types/extendable_hash_table_directory_page.rs: split_bucket, update_directory_for_split, grow_directory"]}
{"id": "C20", "title": "Hash table lookups return what was inserted", "statement": "After any sequence of successful inserts of distinct keys into the extendible hash table, looking up each inserted key returns its value and looking up any other key returns nothing.", "quantifier": "all insert sequences and all hash functions", "why_tests_cant": "Depends on hash collisions and split patterns.", "anchors": ["src/container/disk_extendable_hash_table.rs: insert, get_value, split_bucket_internal"]}
{"id": "C21", "title": "Removing from the hash table removes only that key", "statement": "After remove(k) succeeds, k is absent and every other key's lookup result is unchanged, also when the bucket becomes empty and is merged, and the directory stays well formed.", "quantifier": "all table states and keys", "why_tests_cant": "Merge conditions depend on history.", "anchors": ["src/container/disk_extendable_hash_table.rs: remove, merge", "src/storage/page/page_types/extendable_hash_table_directory_page.rs: merge_bucket"]}
{"id": "C22", "title": "Index range scan returns exactly the keys in range, in order", "statement": "After any sequence of inserts with distinct keys, a range scan of the B+ tree index returns exactly the inserted (key, rid) pairs with start <= key <= end (or < end), in ascending key order, and a full scan returns all of them.", "quantifier": "all insert sequences, all ranges, all orders >= 3", "why_tests_cant": "Tree shapes and key sets are unbounded.", "anchors": ["src/storage/index/b_plus_tree.rs: insert, scan_range, scan_full"]}
{"id": "C23", "title": "B+ tree stays balanced and ordered", "statement": "After any sequence of inserts all leaves are at the same depth, keys are ordered with separators bounding the subtrees, no node exceeds its capacity, and the leaf chain visits leaves left to right.", "quantifier": "all insert sequences", "why_tests_cant": "Structural invariant over all histories.", "anchors": ["src/storage/index/b_plus_tree.rs: insert, split_child, insert_non_full"]}
{"id": "C24", "title": "Index delete removes exactly one entry", "statement": "delete(key, rid) removes exactly that entry, reports whether it existed, and leaves every other entry findable.", "quantifier": "all trees and entries", "why_tests_cant": "Rebalancing paths depend on global tree shape.", "anchors": ["src/storage/index/b_plus_tree.rs: delete, rebalance_after_delete, merge_with_left, merge_with_right"]}
{"id": "C25", "title": "Index iterator yields each matching entry once", "statement": "Iterating a bounded range to the end yields every entry in the range exactly once and then ends.", "quantifier": "all index contents and ranges", "why_tests_cant": "Batch boundary behaviour depends on contents.", "anchors": ["src/storage/index/index_iterator_mem.rs: IndexIterator"]}
{"id": "C26", "title": "Buffer pool bookkeeping is consistent", "statement": "After any sequence of new / fetch / unpin / delete calls every resident page is in exactly one frame, no frame is both free and in use, and a pinned page is never evicted or deleted.", "quantifier": "all call sequences, pool sizes and disk outcomes", "why_tests_cant": "Interactions of eviction, pins and failures are unbounded.", "anchors": ["src/buffer/buffer_pool_manager_async.rs: new_page, fetch_page, unpin_page, delete_page, get_available_frame, evict_page_if_necessary"]}
{"id": "C27", "title": "Pages written through the pool are read back unchanged", "statement": "Fetching a page returns the bytes most recently written to it through the pool, whether or not it was evicted in between (with a disk that does not fail).", "quantifier": "all call sequences and eviction patterns", "why_tests_cant": "Eviction pattern dependent.", "anchors": ["src/buffer/buffer_pool_manager_async.rs: fetch_page, evict_old_page, write_page_to_disk, load_page_from_disk"]}
{"id": "C28", "title": "A failed page load does not shrink the pool", "statement": "If fetch_page fails to load a page, the frame it reserved remains available for later requests.", "quantifier": "all pool states and disk failures", "why_tests_cant": "Failure interleavings.", "anchors": ["src/buffer/buffer_pool_manager_async.rs: load_page_from_disk, create_page_from_data"]}
{"id": "C29", "title": "Log sequence numbers are unique and increasing, and commits are durable when acknowledged", "statement": "Appended records get strictly increasing LSNs in log order, and when a commit append returns (without shutdown) every record with an LSN up to the commit's is on stable storage, in LSN order.", "quantifier": "all interleavings of appends, flush steps and crashes", "why_tests_cant": "Interleavings of writer and flusher are unbounded.", "anchors": ["src/recovery/log_manager.rs: append_log_record, run_flush_thread, perform_flush"]}
{"id": "C30", "title": "Log records survive framing and the reader stops at the torn tail", "statement": "Iterating over a log file consisting of any sequence of framed records (of at most a million bytes each, not of type Invalid) followed by nothing, a torn record or zero bytes yields exactly those records in order; cutting the file at any byte yields exactly the records that are complete.", "quantifier": "all record sequences, cuts and tails", "why_tests_cant": "Unbounded inputs.", "anchors": ["src/recovery/log_record.rs: to_bytes", "src/recovery/log_iterator.rs: LogIterator::next"]}
{"id": "C31", "title": "Crash recovery keeps committed and drops uncommitted changes", "statement": "After recovery from any prefix of the log, each row holds the last value written by a committed transaction in that prefix.", "quantifier": "all logs and crash points", "why_tests_cant": "Crash points are unbounded.", "anchors": ["src/recovery/log_recovery.rs: analyze, redo, undo"]}
{"id": "C32", "title": "Tuples on a page never overlap and keep their contents", "statement": "After any sequence of inserts, updates and metadata changes on a table page, each slot's bytes are inside the page, do not overlap another's, get_tuple returns what was last written to that slot, a refused operation changes nothing and none panics. The header counts the rows and the rows marked deleted.", "quantifier": "all insert/update sequences", "why_tests_cant": "Layout corruption needs particular size sequences.", "anchors": ["src/storage/page/page_types/table_page.rs: insert_tuple, update_tuple, get_next_tuple_offset", "src/storage/page/page_types/table_page.rs: update_tuple_meta, get_num_tuples, get_num_deleted_tuples"]}
{"id": "C33", "title": "SQL logic follows three-valued truth tables", "statement": "AND, OR, NOT over TRUE/FALSE/NULL operands evaluate per the SQL three-valued tables, so De Morgan, commutativity, associativity and distributivity hold for every operand.", "quantifier": "all operand values and expression trees", "why_tests_cant": "Expression trees are unbounded.", "anchors": ["src/sql/execution/expressions/logic_expression.rs: perform_and, perform_or, perform_computation"]}
{"id": "C34", "title": "IN and ANY/ALL follow three-valued quantifier semantics", "statement": "x IN (list), x op ANY (list) equal the three-valued OR of the element comparisons and x op ALL (list) the three-valued AND, independently of list order.", "quantifier": "all values and lists of any length", "why_tests_cant": "Lists are unbounded.", "anchors": ["src/sql/execution/expressions/in_expression.rs: check_value_in_list", "src/sql/execution/expressions/any_expression.rs: evaluate", "src/sql/execution/expressions/all_expression.rs: evaluate"]}
{"id": "C35", "title": "LIKE matches exactly the strings its pattern denotes", "statement": "value LIKE pattern is true exactly when the value can be split according to the pattern with % matching any string, _ any one character, an escaped character itself, and other characters themselves.", "quantifier": "all strings, patterns and escape characters", "why_tests_cant": "Unbounded strings and nested wildcards.", "anchors": ["src/sql/execution/expressions/like_expression.rs: matches_pattern"]}
{"id": "C36", "title": "Substring and overlay cut where SQL says", "statement": "SUBSTRING(s FROM p FOR n) on single-byte text returns the n characters starting at position p and never panics; OVERLAY replaces exactly the addressed characters.", "quantifier": "all strings, positions and lengths", "why_tests_cant": "Boundary positions are unbounded.", "anchors": ["src/sql/execution/expressions/substring_expression.rs: evaluate", "src/sql/execution/expressions/overlay_expression.rs: evaluate"]}
{"id": "C37", "title": "COALESCE, CASE, IS [NOT] DISTINCT and BETWEEN follow SQL semantics", "statement": "COALESCE returns the first non-null argument, CASE the first branch whose condition is true (NULL conditions do not match), IS DISTINCT FROM treats NULL as an ordinary value and BETWEEN is the three-valued conjunction of its two comparisons.", "quantifier": "all argument lists and values", "why_tests_cant": "Unbounded argument lists, null patterns.", "anchors": ["src/sql/execution/expressions/coalesce_expression.rs", "case_expression.rs", "is_distinct_expression.rs", "between_expression.rs"]}
{"id": "C38", "title": "Integer comparison, equality, ordering and hashing of values agree", "statement": "For all values, equality is an equivalence, equal values hash equally, the total order used by sorting is transitive and consistent with equality, and SQL comparisons on mixed integer widths agree with the mathematical order of the integers.", "quantifier": "all values", "why_tests_cant": "Type combinations times 2^128 values.", "anchors": ["src/types_db/value.rs: compare_equals, compare_less_than, PartialEq, PartialOrd, Hash"]}
{"id": "C39", "title": "Casts between integer types never change a value silently", "statement": "cast_to between integer types succeeds exactly when the number is representable in the target and then preserves the number; casting there and back is the identity.", "quantifier": "all integer values and type pairs", "why_tests_cant": "2^64 values by 16 type pairs.", "anchors": ["src/types_db/value.rs: cast_to"]}
{"id": "C40", "title": "LIMIT, OFFSET and WHERE return the right rows", "statement": "Draining LIMIT n yields the first n rows of its input, OFFSET n all but the first n, WHERE exactly the rows whose predicate is TRUE, in input order, and their composition is the matching slice.", "quantifier": "all inputs and bounds", "why_tests_cant": "Unbounded inputs.", "anchors": ["src/sql/execution/executors/limit_executor.rs: next", "offset_executor.rs: next", "filter_executor.rs: next"]}
{"id": "C41", "title": "ORDER BY returns a sorted permutation", "statement": "Draining the sort executor yields a permutation of its input ordered by the ORDER BY keys with directions, equal rows keeping input order.", "quantifier": "all inputs and key lists", "why_tests_cant": "Unbounded inputs.", "anchors": ["src/sql/execution/executors/sort_executor.rs: init, next"]}
{"id": "C42", "title": "DISTINCT drops exactly the duplicate rows", "statement": "Draining DISTINCT yields each different input row exactly once, at its first occurrence.", "quantifier": "all inputs", "why_tests_cant": "Collision of the internal row encoding depends on values.", "anchors": ["src/sql/execution/executors/distinct_executor.rs: serialize_tuple, next"]}
{"id": "C43", "title": "Nested-loop joins compute the relational join", "statement": "Draining the nested loop join yields, for INNER/CROSS/LEFT/RIGHT/FULL joins, exactly the matching pairs plus one null-padded row for each unmatched row of the preserved side(s), counting duplicates.", "quantifier": "all input relations and predicates", "why_tests_cant": "Unbounded relations, duplicates and empty sides.", "anchors": ["src/sql/execution/executors/nested_loop_join_executor.rs: execute_main_join, process_unmatched_tuples"]}
{"id": "C44", "title": "Hash join computes the equi-join", "statement": "Draining the hash join yields exactly the pairs of rows with equal (non-null) join keys.", "quantifier": "all input relations", "why_tests_cant": "Unbounded relations, duplicate keys.", "anchors": ["src/sql/execution/executors/hash_join_executor.rs: next, build_hash_table"]}
{"id": "C45", "title": "Aggregates compute the SQL aggregate of each group", "statement": "For each group COUNT(*) is the number of rows, COUNT(x) the number of non-null x, SUM/MIN/MAX range over the non-null values and are NULL when there is none, and one output row is produced per distinct group key.", "quantifier": "all inputs", "why_tests_cant": "Unbounded inputs and null patterns.", "anchors": ["src/sql/execution/executors/aggregation_executor.rs: compute_aggregate, init, next"]}
{"id": "C46", "title": "TOP-N returns the N first rows in order", "statement": "Draining TopN with limit k yields the k first rows of the input in sort order.", "quantifier": "all inputs and k", "why_tests_cant": "Unbounded inputs.", "anchors": ["src/sql/execution/executors/topn_executor.rs: init, next"]}
{"id": "C47", "title": "Index scan returns the same rows as a filtered sequential scan", "statement": "The key range an index scan derives from its predicate includes every row satisfying the predicate.", "quantifier": "all predicates and tables", "why_tests_cant": "Predicate trees are unbounded.", "anchors": ["src/sql/execution/executors/index_scan_executor.rs: analyze_predicate_ranges, analyze_bounds"]}
{"id": "C48", "title": "LRU-K page cache evicts by K-distance", "statement": "The LRU-K cache is a bounded map: a lookup returns the last value inserted for the key unless it was removed or evicted, the number of entries never exceeds the capacity, and an insert into a full cache evicts an entry with fewer than K recorded accesses and the oldest first access if there is one, otherwise an entry whose K-th most recent access is oldest.", "quantifier": "all call histories, clocks and map iteration orders", "why_tests_cant": "The victim depends on the whole access history and on hash map iteration order.", "anchors": ["src/storage/disk/async_disk/cache/lru_k.rs: LRUKCache::insert, get, pop_lru_k, peek_lru_k, touch, remove"]}
{"id": "C49", "title": "Releasing a lock returns and lets waiters in", "statement": "Unlocking a table or row lock that a transaction holds returns, removes that lock, and grants waiting requests that are compatible with what remains; a refused upgrade does not block the table for others after the transaction's locks are gone.", "quantifier": "all lock manager histories", "why_tests_cant": "Needs waiters in every position of the queue and every history of upgrades.", "anchors": ["src/concurrency/lock_manager.rs: unlock_table, unlock_row, release_table_lock, grant_waiting_locks"]}
{"id": "C50", "title": "Force-releasing a transaction leaves nothing behind", "statement": "After the locks of a transaction are force-released (at commit or abort) it holds no table or row lock and has no pending request.", "quantifier": "all lock manager histories", "why_tests_cant": "Leftovers depend on the history of grants, upgrades and refusals.", "anchors": ["src/concurrency/lock_manager.rs: force_release_txn"]}
{"id": "C51", "title": "Row locks are taken and kept under a table lock", "statement": "A row lock is granted only to a transaction holding a suitable table lock, and the table lock cannot be released while the row lock is held; a held row lock can be released.", "quantifier": "all lock manager histories", "why_tests_cant": "Quantifies over table oids, page numbers and histories.", "anchors": ["src/concurrency/lock_manager.rs: lock_row, unlock_row, unlock_table, get_row_locks_for_table"]}
{"id": "C52", "title": "Two-phase locking", "statement": "After a transaction released a lock that its isolation level protects to the end, it is granted no further lock.", "quantifier": "all histories after the release", "why_tests_cant": "The release and the later request can be arbitrarily far apart.", "anchors": ["src/concurrency/lock_manager.rs: validate_lock_request, unlock_table"]}
{"id": "C53", "title": "Reads of a transaction come from one snapshot", "statement": "At repeatable read, serializable and snapshot level, every read of a row by a running transaction returns the transaction's own last write of the row, otherwise the value that was committed when the transaction began, whatever other transactions do meanwhile.", "quantifier": "all histories of begin, insert, update, delete, commit and abort by any number of transactions, all rows", "why_tests_cant": "a violation needs a particular interleaving of several transactions with aborts and pruning", "anchors": ["src/storage/table/transactional_table_heap.rs get_tuple, get_visible_version, insert_tuple, update_tuple, delete_tuple", "src/concurrency/transaction_manager.rs begin, commit, abort, prune_completed_transactions"]}
{"id": "C54", "title": "No lost updates and no dirty writes", "statement": "Of two transactions that overlap and write the same row, the second writer is refused: while the first has not committed, and, at the snapshot levels, also after it has committed.", "quantifier": "all states, transactions and rows", "why_tests_cant": "needs two overlapping writers", "anchors": ["src/storage/table/transactional_table_heap.rs update_tuple, delete_tuple"]}
{"id": "C55", "title": "Read committed returns the latest committed version", "statement": "At read committed, a read returns the transaction's own version if it wrote the row, otherwise the most recently committed version.", "quantifier": "all states and rows", "why_tests_cant": "needs a writer that has not committed on top of a commit newer than the reader", "anchors": ["src/storage/table/transactional_table_heap.rs get_tuple"]}
{"id": "C56", "title": "An UPDATE statement can change any row its transaction may write", "statement": "UPDATE changes a committed row and a row the same transaction inserted or updated before, and is refused on a row with another transaction's uncommitted change.", "quantifier": "all states, transactions and rows", "why_tests_cant": "depends on who wrote the row last", "anchors": ["src/sql/execution/executors/update_executor.rs next", "src/storage/table/transactional_table_heap.rs update_tuple"]}
{"id": "C57", "title": "Garbage collection keeps what readers need", "statement": "Running garbage collection at any moment does not change what any running transaction reads, nor what a later abort restores.", "quantifier": "all states at which it is called", "why_tests_cant": "needs a reader older than a version and a collection in between", "anchors": ["src/concurrency/transaction_manager.rs garbage_collection"]}
{"id": "C58", "title": "A lock request takes no lock away", "statement": "Asking for a table lock never changes the locks other transactions hold; and when the request is refused, the locks the asking transaction already holds are unchanged.", "quantifier": "every lock manager state, transaction, mode and table", "why_tests_cant": "the outcome depends on the other holders and on upgrades under way", "anchors": ["src/concurrency/lock_manager.rs: LockRequestQueue::grant_lock, LockManager::lock_table"]}
{"id": "C59", "title": "Hash index contents survive leaving the buffer pool", "statement": "The entries inserted into a hash bucket page are found again by lookups after the page was written to disk, dropped from memory and loaded again.", "quantifier": "all bucket contents and key encodings", "why_tests_cant": "The bytes depend on the contents; tests keep pages in memory.", "anchors": ["src/storage/page/page_types/extendable_hash_table_bucket_page.rs: serialize_entries, deserialize_entries, get_data, set_data"]}
{"id": "C60", "title": "A write is not lost when writing it out fails", "statement": "If writing a dirty page to the disk fails, the page and what was written to it stay available through the pool.", "quantifier": "all pool states and disk failures", "why_tests_cant": "Needs a disk failure at one particular eviction.", "anchors": ["src/buffer/buffer_pool_manager_async.rs: evict_old_page, write_page_to_disk_sync, flush_page_async"]}
{"id": "C61", "title": "Flushing all pages puts memory on the disk", "statement": "After flush_all_pages with a disk that does not fail, the disk holds the current content of every page in memory, and no content has changed.", "quantifier": "all histories before the flush", "why_tests_cant": "Depends on every earlier call.", "anchors": ["src/buffer/buffer_pool_manager_async.rs: flush_all_pages_async, flush_page_async, write_page_to_disk_async"]}
{"id": "C62", "title": "Guards of the same page share its content", "statement": "Two guards of the same page held at the same time show the same content: what is written through one is read through the other.", "quantifier": "all histories and interleavings of calls", "why_tests_cant": "Depends on the interleaving of two fetches.", "anchors": ["src/buffer/buffer_pool_manager_async.rs: fetch_page, load_page_from_disk, update_page_metadata", "src/storage/page/page_guard.rs"]}
{"id": "C63", "title": "Rows survive encoding", "statement": "Any SQL value, row and row header that the engine can build decodes from its encoding to itself, with the bytes after it untouched, so different rows have different encodings.", "quantifier": "all values, of any type and nesting, with all field values", "why_tests_cant": "Values nest without bound.", "anchors": ["src/types_db/value.rs: Val, Value", "src/storage/table/tuple.rs: Tuple, TupleMeta"]}
{"id": "C64", "title": "What the log accepts stays readable", "statement": "Every record appended to the log is read back by a later recovery, whatever the log file ended with when the database was started.", "quantifier": "all logs, all crash points before the restart, all later appends", "why_tests_cant": "Needs a crash at one byte and a restart.", "anchors": ["src/recovery/log_iterator.rs: LogIterator::next", "src/storage/disk/async_disk/io/executor.rs: append_log"]}
{"id": "C65", "title": "A page's bytes hold its rows", "statement": "Reading back the bytes a table page is written out with gives a page with the same rows, metadata and links, so rows survive eviction from the buffer pool.", "quantifier": "all histories of a page and all moments of eviction", "why_tests_cant": "Needs every layout the page can reach, at every moment.", "anchors": ["src/storage/page/page_types/table_page.rs: serialize, deserialize, set_data", "src/buffer/buffer_pool_manager_async.rs: create_page_from_data"]}
{"id": "C66", "title": "Integer arithmetic is exact or an error", "statement": "+, -, *, / on integers of any widths give the exact result in the wider type, an overflow error exactly when it does not fit and an error on division by zero; a NULL operand gives NULL; unary minus and % likewise; and an expression means the same in a join condition as elsewhere.", "quantifier": "all operators, operands and types", "why_tests_cant": "2^128 operand pairs per operator; boundary cases in 36 type pairs.", "anchors": ["src/sql/execution/expressions/arithmetic_expression.rs: evaluate, evaluate_join", "src/sql/execution/expressions/unary_op_expression.rs: evaluate", "src/types_db/value.rs: modulo"]}
{"id": "C67", "title": "Integers survive the way through text", "statement": "An integer cast to VARCHAR or CHAR and back to its type is the same integer, and a string casts to an integer type only if it denotes a number of that type.", "quantifier": "all integers, types and strings", "why_tests_cant": "2^64 values and unbounded strings.", "anchors": ["src/types_db/value.rs: cast_to"]}
{"id": "C68", "title": "Numeric casts never give a different number", "statement": "A cast between numeric types gives the same number, or its truncation towards zero when going from a float to an integer, or an error.", "quantifier": "all numbers and type pairs", "why_tests_cant": "2^64 values per type pair.", "anchors": ["src/types_db/value.rs: cast_to"]}
{"id": "C69", "title": "Comparisons compare the numbers", "statement": "A comparison of two numbers in an expression compares the numbers they stand for, whatever their types and whichever side they are on.", "quantifier": "all operators, numbers and pairs of types", "why_tests_cant": "2^128 pairs per operator and type pair.", "anchors": ["src/sql/execution/expressions/comparison_expression.rs: perform_comparison, evaluate", "src/types_db/value.rs: cast_to"]}
{"id": "C70", "title": "A condition means the same in a join", "statement": "An expression over the columns of two rows has the same value in a join condition as on the joined row in a filter.", "quantifier": "all expressions and pairs of rows", "why_tests_cant": "Expression trees and rows are unbounded.", "anchors": ["src/sql/execution/expressions/*.rs: evaluate, evaluate_join"]}
{"id": "C71", "title": "TRIM and POSITION", "statement": "TRIM removes exactly the leading/trailing characters of the given set; POSITION is the number of the first character at which the text occurs, or 0.", "quantifier": "all strings and sets", "why_tests_cant": "Strings are unbounded.", "anchors": ["src/sql/execution/expressions/trim_expression.rs: evaluate", "src/sql/execution/expressions/position_expression.rs: evaluate", "src/sql/planner/expression_parser.rs: Expr::Trim"]}
{"id": "C72", "title": "The optimizer does not change what a query returns", "statement": "Running the plan the optimizer returns gives the same rows in the same order, and the same kind of end, as running the plan it was given.", "quantifier": "all plans and database contents", "why_tests_cant": "Plans are unbounded trees and rewrite rules interact.", "anchors": ["src/sql/optimizer/optimizer_impl.rs: optimize, apply_index_scan_optimization, apply_early_pruning, apply_rewrite_rules, push_down_predicate, merge_projections, validate_plan", "src/sql/planner/logical_plan.rs: to_physical_plan"]}
{"id": "C73", "title": "A SELECT returns what SQL says it means", "statement": "For a SELECT over one table: the rows on which WHERE is TRUE, grouped by GROUP BY with each aggregate over exactly the rows of its group, filtered by HAVING, with the SELECT list evaluated over the named columns, each different row once for DISTINCT, ordered by ORDER BY, and the part OFFSET and LIMIT ask for. Names that fit several columns are refused.", "quantifier": "all SELECT statements over one table, schemas and table contents", "why_tests_cant": "Statements and tables are unbounded and the clauses interact.", "anchors": ["src/sql/planner/plan_builder.rs: build_query_plan, build_select_plan_with_order_by, build_projection_plan_with_schema", "src/sql/planner/schema_manager.rs: create_aggregation_output_schema_with_alias_mapping", "src/sql/execution/expression_parser.rs: parse_expression, replace_aggregates_with_column_refs", "src/catalog/schema.rs: get_qualified_column_index"]}
{"id": "C74", "title": "An index does not change the answer of a query", "statement": "SELECT gives the same rows whether or not the table has an index, at every point of every history of INSERT, UPDATE, DELETE and index creation.", "quantifier": "all histories and table contents", "why_tests_cant": "The effect depends on the order of unboundedly many statements.", "anchors": ["src/catalog/database.rs: create_index, populate_index_with_existing_data", "src/sql/optimizer/optimizer_impl.rs: apply_index_scan_optimization, create_constraint_indexes", "src/sql/execution/executors/insert_executor.rs: next"]}
{"id": "C75", "title": "DELETE removes exactly the rows it selects", "statement": "DELETE removes exactly the rows of the table, as the transaction sees it, on which WHERE is TRUE, and reports their number; the other rows stay as they are.", "quantifier": "all tables, page layouts, WHERE clauses and transactions", "why_tests_cant": "Tables and expressions are unbounded, and the scan runs while the table changes under it.", "anchors": ["src/sql/execution/executors/delete_executor.rs: next", "src/storage/table/transactional_table_heap.rs: delete_tuple", "src/storage/table/table_iterator.rs: next"]}
{"id": "C76", "title": "UPDATE changes exactly the rows it selects", "statement": "UPDATE replaces exactly the rows the transaction sees on which WHERE is TRUE. Each assigned column gets the value of its expression on the old row, the other columns and rows keep theirs; no row is updated twice.", "quantifier": "all tables, page layouts, WHERE clauses, assignments and transactions", "why_tests_cant": "Tables and expressions are unbounded, and the scan runs while the table changes under it.", "anchors": ["src/sql/execution/executors/update_executor.rs: next", "src/storage/table/transactional_table_heap.rs: update_tuple", "src/storage/table/table_iterator.rs: next"]}
{"id": "C77", "title": "A scan returns every row once with its record id", "statement": "A scan of a table returns every row that is not deleted exactly once, in the order of the table, with the record id under which it can be fetched, or reports an error.", "quantifier": "all tables and page layouts, with any slots deleted and any pages empty", "why_tests_cant": "Tables have unboundedly many pages and deletion patterns.", "anchors": ["src/storage/table/table_iterator.rs: next, advance", "src/storage/table/table_heap.rs: get_first_page_id, make_iterator", "src/catalog/database.rs: populate_index_with_existing_data"]}
{"id": "C78", "title": "INSERT stores the rows it was given", "statement": "INSERT stores each given row, each value in the column it is listed for and cast to its type, in order behind the old rows, and reports their number. A column that is not listed gets its DEFAULT.", "quantifier": "all tables, column lists, rows of expressions and source queries", "why_tests_cant": "Rows, columns and expressions are unbounded.", "anchors": ["src/sql/execution/executors/insert_executor.rs: next", "src/sql/planner/plan_builder.rs: build_insert_plan", "src/sql/planner/schema_manager.rs: map_values_to_schema", "src/storage/table/table_heap.rs: expand_values_for_schema, insert_tuple_from_values"]}
{"id": "C79", "title": "Declared constraints hold", "statement": "After every statement that succeeds the table satisfies its NOT NULL, PRIMARY KEY, UNIQUE, CHECK, length and FOREIGN KEY constraints.", "quantifier": "all tables, constraints and histories of INSERT, UPDATE and DELETE", "why_tests_cant": "Histories are unbounded and constraints relate rows of several tables.", "anchors": ["src/storage/table/transactional_table_heap.rs: insert_tuple_from_values_with_catalog", "src/sql/execution/executors/insert_executor.rs: validate_foreign_key_constraints_with_context", "src/sql/execution/executors/update_executor.rs: next", "src/sql/execution/executors/delete_executor.rs: next"]}
{"id": "C80", "title": "Stored values have the types of their columns", "statement": "After every statement each stored value is NULL or of the declared type of its column.", "quantifier": "all tables, statements and values", "why_tests_cant": "Expressions give values of all types.", "anchors": ["src/sql/planner/schema_manager.rs: map_values_to_schema, cast_value_to_type", "src/storage/table/table_heap.rs: get_next_auto_increment_value", "src/sql/execution/executors/update_executor.rs: next"]}
{"id": "C81", "title": "A statement that fails has no effect", "statement": "When INSERT, UPDATE or DELETE reports an error, the transaction sees the tables as they were before the statement.", "quantifier": "all statements and points of failure", "why_tests_cant": "The failure can come after any number of rows.", "anchors": ["src/sql/execution/executors/insert_executor.rs: next", "src/sql/execution/executors/update_executor.rs: next", "src/sql/execution/executors/delete_executor.rs: next", "src/sql/execution/execution_engine.rs: execute_plan"]}
{"id": "C82", "title": "The server handles the requests a client sends", "statement": "Every request the client library sends, a query, begin, commit, rollback, prepare, execute or close with any text, isolation level and parameters, is handled by the server as that request, once, and in the order sent, however the network cuts the bytes into reads.", "quantifier": "every list of requests and every way the network divides their bytes into reads", "why_tests_cant": "The network may cut or join the bytes at any place, and texts can have any length.", "anchors": ["src/server/connection.rs: handle_connection", "src/server/protocol.rs: DatabaseRequest", "src/client/client_impl.rs: send_request"]}
{"id": "C83", "title": "The client receives the response the server sent", "statement": "Every response of the server, results with any columns and rows, a prepare acknowledgement or an error, is received by the client library as it was sent, however the network cuts the bytes into reads.", "quantifier": "every response and every way the network divides its bytes into reads", "why_tests_cant": "The network may cut the bytes at any place, and results can have any size.", "anchors": ["src/server/connection.rs: handle_connection", "src/server/protocol.rs: DatabaseResponse", "src/client/client_impl.rs: send_request"]}
{"id": "C84", "title": "Transactions of clients take effect as a whole or not at all", "statement": "Whatever any number of clients do in any order: a statement outside a transaction is committed if it is answered with results and has no effect if it is answered with an error; the statements between BEGIN and COMMIT are committed together, in the order of the commits; those followed by ROLLBACK or a lost connection are not committed; no client's COMMIT or ROLLBACK affects another's statements.", "quantifier": "all numbers of clients, histories of calls, isolation levels and outcomes of statements", "why_tests_cant": "Histories interleave any number of clients, and every statement can fail.", "anchors": ["src/common/db_instance.rs: handle_network_query, handle_commit, handle_rollback, remove_client_session", "src/sql/execution/execution_engine.rs: execute_plan, commit_transaction", "src/concurrency/transaction_manager_factory.rs: commit_transaction, abort_transaction"]}
{"id": "C85", "title": "No transaction outlives its session", "statement": "A transaction that runs belongs to exactly one connected client; when no client is connected, none runs.", "quantifier": "all histories of calls of all clients", "why_tests_cant": "Clients can vanish after any history.", "anchors": ["src/common/db_instance.rs: remove_client_session", "src/sql/execution/executors/start_transaction_executor.rs: next", "src/sql/execution/execution_engine.rs: chain_transaction"]}
{"id": "C86", "title": "Prepared statements", "statement": "Preparing a statement does not run it; executing it runs it with the given parameters, as the statement itself would; closing it forgets it.", "quantifier": "all histories of calls and all statements", "why_tests_cant": "Statements are prepared, executed and closed in any order by any number of clients.", "anchors": ["src/common/db_instance.rs: handle_network_query, handle_sql_query, handle_execute_statement", "src/sql/execution/execution_engine.rs: execute_prepared_statement"]}
{"id": "C87", "title": "Transactions run at the isolation level asked for", "statement": "A transaction runs from its beginning to its end at the level its BEGIN request names; a statement outside a transaction at that of the latest BEGIN of its session, and at READ COMMITTED if there was none.", "quantifier": "all histories of calls of all clients", "why_tests_cant": "Levels are set by one call and used by others after any history.", "anchors": ["src/common/db_instance.rs: handle_begin_transaction, create_client_session, handle_network_query"]}
{"id": "C88", "title": "A page reads as it was last written", "statement": "Reading a page through the disk manager returns the bytes of the last successful write of that page, whether those bytes are still buffered, cached or already on disk.", "quantifier": "every configuration, history of page writes, batch writes, reads and flushes, eviction and flush timing", "why_tests_cant": "what a read sees depends on which of three caches, the write buffer and the file holds a copy and on the order of earlier reads; a test runs one such order", "anchors": ["src/storage/disk/async_disk/manager.rs: read_page, write_page", "src/storage/disk/async_disk/cache/cache_manager.rs: get_page_internal, store_page, check_duplicate", "src/storage/disk/async_disk/memory/write_manager.rs: buffer_write"]}
{"id": "C89", "title": "What was written before a flush survives a crash", "statement": "If writes and then a flush report success, then after any further calls and a crash at any point each page holds what it held at the flush or something written to it later, and no page written before the flush is missing.", "quantifier": "every configuration, history before and after the flush, pattern of I/O errors after it, and crash point", "why_tests_cant": "crash points and failing I/Os between any two steps cannot be enumerated by tests", "anchors": ["src/storage/disk/async_disk/manager.rs: flush, flush_writes_with_durability, write_pages_to_disk", "src/storage/disk/async_disk/memory/write_manager.rs: flush_internal, buffer_write", "src/storage/disk/async_disk/memory/durability_manager.rs: apply_durability", "src/storage/disk/async_disk/memory/write_staging_buffer.rs: buffer_write, drain_buffer"]}
{"id": "C90", "title": "Every disk call comes back", "statement": "Every read, write, batch, flush and shutdown call of the disk manager returns a result or an error; none waits forever and none panics.", "quantifier": "every configuration, state and call", "why_tests_cant": "a call that never returns shows up in a test only if the test happens to reach that state, and the tests switch work stealing off", "anchors": ["src/storage/disk/async_disk/manager.rs: schedule_read_operation, schedule_batch_read_operation, force_flush_all", "src/storage/disk/async_disk/scheduler.rs: WorkStealingScheduler", "src/storage/disk/async_disk/config.rs: DiskManagerConfig::default"]}
{"id": "C91", "title": "A read gives only what was written to that page", "statement": "Whatever a read returns, and whatever a crash leaves, is the page's content when the file was opened or bytes that an earlier call wrote to that very page: contents of different pages are never mixed up.", "quantifier": "every configuration, history of calls, pattern of I/O errors, eviction, admission and flush timing", "why_tests_cant": "mix-ups depend on the interplay of caches, deduplication by hash and buffers over whole histories", "anchors": ["src/storage/disk/async_disk/manager.rs: read_page, read_pages_batch", "src/storage/disk/async_disk/cache/cache_manager.rs: store_page, get_page_internal", "src/storage/disk/async_disk/memory/write_staging_buffer.rs"]}
{"id": "C92", "title": "A batch read is the reads of its pages", "statement": "A batch read returns the pages in the order asked for, with the bytes single reads would have returned, and succeeds when those do.", "quantifier": "every configuration, state and list of page ids", "why_tests_cant": "lists of any length are cut into chunks in ways that depend on the configuration", "anchors": ["src/storage/disk/async_disk/manager.rs: read_pages_batch, schedule_batch_read_operation, direct_batch_read_operation"]}
{"id": "C93", "title": "Concurrent flushes do not undo newer writes", "statement": "When several tasks write and flush at the same time, then once all calls have returned and a flush has succeeded each page holds what was last written to it.", "quantifier": "every interleaving of the atomic steps of any number of tasks", "why_tests_cant": "interleavings of concurrent flushes cannot be enumerated by tests", "anchors": ["src/storage/disk/async_disk/memory/write_manager.rs: flush, force_flush, flush_internal", "src/storage/disk/async_disk/manager.rs: write_pages_to_disk"]}
{"id": "C94", "title": "The paged index finds what was inserted", "statement": "In an index kept in pages, made with an order of at least 2, every insert succeeds, and after any number of inserts a search for a key gives the value last inserted under it, and nothing for a key never inserted.", "quantifier": "every order of at least 2, every sequence of inserts of either kind and every key, while the pages stay in memory", "why_tests_cant": "which pages are split, and how far up, depends on the whole sequence of inserts; a test tries a few sequences", "anchors": ["src/storage/index/b_plus_tree_index.rs: insert, insert_with_latch_crabbing, split_leaf_page, split_internal_page, search", "src/storage/page/page_types/b_plus_tree_leaf_page.rs: insert_key_value", "src/storage/page/page_types/b_plus_tree_internal_page.rs: find_child_for_key"]}
{"id": "C95", "title": "A range scan of the paged index is sorted and complete", "statement": "After any inserts a range scan of the paged index returns each entry whose key lies between the bounds, both included, exactly once and in order of the keys, and the stored key count is the number of entries.", "quantifier": "every order of at least 2, every sequence of inserts and every pair of bounds", "why_tests_cant": "the chain of leaves is rebuilt by every split; a test sees a few chains", "anchors": ["src/storage/index/b_plus_tree_index.rs: range_scan, increment_num_keys, split_leaf_page"]}
{"id": "C96", "title": "Removing a key from the paged index removes that key only", "statement": "A removal from the paged index returns, says whether the key was there, and afterwards exactly the other entries are found by searches and range scans.", "quantifier": "every order of at least 2 and every history of inserts and removals", "why_tests_cant": "whether a removal merges pages or moves entries, and how far up, depends on the whole history", "anchors": ["src/storage/index/b_plus_tree_index.rs: remove, remove_with_latch_crabbing, check_and_handle_underflow, merge_leaf_pages, redistribute_leaf_pages", "src/storage/page/page_types/b_plus_tree_internal_page.rs: remove_key_value_at"]}
{"id": "C97", "title": "The paged index survives leaving the buffer pool", "statement": "What searches in the paged index return does not depend on which of its pages the buffer pool has evicted.", "quantifier": "every history, evicted page and key", "why_tests_cant": "evictions happen under memory pressure that tests do not create", "anchors": ["src/storage/page/page_types/b_plus_tree_leaf_page.rs: PageTrait::new", "src/storage/page/page_types/b_plus_tree_internal_page.rs: PageTrait::new", "src/storage/page/page_types/b_plus_tree_header_page.rs: set_data"]}
{"id": "C98", "title": "Concurrent calls on the paged index act as if made one at a time", "statement": "When several threads insert into, remove from and search the paged index at the same time, every call answers, and the index afterwards holds, what it would if the calls had been made one after another in some order that respects which call ended before another began. In particular every inserted key is found until it is removed.", "quantifier": "every number of threads, every calls of theirs and every interleaving of their steps", "why_tests_cant": "a lost key needs a split between two particular steps of another insert", "anchors": ["src/storage/index/b_plus_tree_index.rs: insert, insert_with_latch_crabbing, remove, remove_with_latch_crabbing, search, find_leaf_page_with_path, traverse_optimistic, insert_into_empty_tree, split_leaf_page, update_header"]}
{"id": "C99", "title": "Names mean the tables created under them", "statement": "After any statements, a table name in SELECT, INSERT, UPDATE or DELETE means the table created under it in the database in use, with the columns it was declared with; a CREATE TABLE succeeds exactly if the name is free there, its clauses name its columns and its foreign keys refer to columns that exist; no two tables share storage; and no statement changes a table that exists into another.", "quantifier": "every sequence of statements of every client, every name, every answer of the buffer pool", "why_tests_cant": "names and ids are spread over several maps that must agree after every history, and quoting gives every name several spellings", "anchors": ["src/catalog/catalog_impl.rs: create_table, get_table, create_database, use_database", "src/catalog/database.rs: create_table, get_table, Database::new", "src/sql/planner/plan_builder.rs: build_create_table_plan, build_update_plan, build_delete_plan", "src/sql/execution/expression_parser.rs: extract_table_name", "src/sql/execution/executors/create_table_executor.rs: next", "src/sql/execution/executors/command_executor.rs: execute_create_database, execute_use_database"]}
{"id": "C100", "title": "Foreign keys refer to something", "statement": "Every foreign key a CREATE TABLE declares is kept or the statement is an error, and at any time every foreign key of every table refers to a table of the same database that exists and has that column.", "quantifier": "every sequence of statements", "why_tests_cant": "it must hold after any order of creations, in every database", "anchors": ["src/catalog/database.rs: validate_foreign_key_constraints", "src/sql/planner/plan_builder.rs: process_table_constraints", "src/sql/planner/schema_manager.rs: parse_column_options"]}
{"id": "C101", "title": "Tables survive a restart", "statement": "After the server is stopped and started again on the same files, every table is there, with its columns, and in the pages it had, which no new table is given.", "quantifier": "every history before the restart", "why_tests_cant": "a test of one restart says nothing about other histories; the harness of the project starts each test with new files", "anchors": ["src/catalog/catalog_impl.rs: new_with_existing_data, rebuild_from_system_catalog, record_system_table, row_to_table_info", "src/catalog/database.rs: load_tables_from_catalog", "src/catalog/system_catalog.rs: bootstrap", "src/common/db_instance.rs: DBInstance::new", "src/buffer/buffer_pool_manager_async.rs: new"]}
{"id": "C102", "title": "A statement that reports success has done what it says", "statement": "A statement that defines something (CREATE TABLE, CREATE INDEX, CREATE DATABASE, USE, ALTER TABLE, CREATE VIEW, SAVEPOINT) and is answered with success has had its effect; answered with an error it has had none.", "quantifier": "every statement in every state", "why_tests_cant": "there are many statements and many reasons to refuse each", "anchors": ["src/sql/execution/executors/create_table_executor.rs: next", "src/sql/execution/executors/create_index_executor.rs: next", "src/sql/execution/executors/command_executor.rs: execute_command", "src/sql/execution/execution_engine.rs: execute_plan", "src/sql/planner/logical_plan.rs: to_physical_plan", "src/catalog/database.rs: create_index, get_table_indexes"]}
{"id": "C103", "title": "USE is for the client that says it", "statement": "The database a client's names are looked up in is the one it chose last, whatever other clients do.", "quantifier": "every interleaving of the statements of any number of clients", "why_tests_cant": "it takes two clients and a particular order", "anchors": ["src/catalog/catalog_impl.rs: use_database, get_current_database", "src/sql/execution/executors/command_executor.rs: execute_use_database"]}
{"id": "C104", "title": "Disk operations are linearizable", "statement": "Calls of the I/O engine (read and write a page, read, write and append to the log, sync) that run concurrently behave as if each took effect at one moment between its call and its answer: a read returns what the last write before it left, a call takes effect at most once and none after it was answered, and an error means nothing or a beginning of the write happened.", "quantifier": "every number of callers and workers, every interleaving of their steps, every I/O error, timeout, cancellation and shutdown at any point, every page number", "why_tests_cant": "the outcome depends on the schedule of workers, timeouts and cancellations", "anchors": ["src/storage/disk/async_disk/io/io_impl.rs: AsyncIOEngine", "src/storage/disk/async_disk/io/worker.rs: worker_loop, process_operation", "src/storage/disk/async_disk/io/executor.rs: execute_operation_type", "src/storage/disk/async_disk/io/completion.rs: start_operation, complete_operation_with_result, cancel_operation, check_timeouts", "src/storage/disk/async_disk/io/queue.rs: enqueue_operation, dequeue_operation"]}
{"id": "C105", "title": "What was synced survives a crash", "statement": "When a page write, or an append to the log, was answered with success, and after that a sync of the file was called and answered with success, a crash at any later moment leaves that content in the file, whatever other operations were going on.", "quantifier": "every history before and after, every crash point, every set of unsynced bytes that happens to reach the disk", "why_tests_cant": "crash points and what the disk keeps of unsynced writes cannot be enumerated by running the code", "anchors": ["src/storage/disk/async_disk/io/executor.rs: execute_write_page, execute_sync, execute_append_log, execute_sync_log", "src/storage/disk/async_disk/io/io_impl.rs: sync, sync_log, append_log, append_log_direct"]}
{"id": "C106", "title": "Priorities are kept", "statement": "Of two operations that are waiting, the one with the higher priority, or of equal priority the older, is executed first; and every waiting operation is executed in the end.", "quantifier": "every set of waiting operations, every number of workers, every later arrivals", "why_tests_cant": "depends on arrival order and on the schedule of the workers", "anchors": ["src/storage/disk/async_disk/io/operations.rs: Ord for IOOperation, priorities", "src/storage/disk/async_disk/io/queue.rs: IOQueueManager", "src/storage/disk/async_disk/io/worker.rs: worker_loop"]}
{"id": "C107", "title": "Every disk call is answered", "statement": "Every call of the I/O engine returns, with a result or an error, as long as workers run; no call is forgotten.", "quantifier": "every interleaving of callers, workers, clean-up and shutdown", "why_tests_cant": "a lost call is a hang that shows only under one schedule", "anchors": ["src/storage/disk/async_disk/io/worker.rs: worker_loop, process_operation, force_shutdown", "src/storage/disk/async_disk/io/completion.rs: start_cleanup_task", "src/storage/disk/async_disk/io/queue.rs: drain_queue", "src/storage/disk/async_disk/io/io_impl.rs: enqueue_tracked_operation"]}
{"id": "C108", "title": "Appends to the log do not overlap", "statement": "An append to the log that was answered with success is found in the log at the offset it returned, and two such appends do not overlap, however many run at the same time, through the queue or past it.", "quantifier": "every interleaving of appends, direct appends and failed writes", "why_tests_cant": "two writers may choose the same offset only under a particular schedule", "anchors": ["src/storage/disk/async_disk/io/executor.rs: execute_append_log", "src/storage/disk/async_disk/io/io_impl.rs: append_log, append_log_direct"]}
{"id": "C109", "title": "A SELECT over joined tables answers as SQL says", "statement": "For every FROM clause of tables, aliases, joins (INNER, LEFT, RIGHT, FULL, CROSS, commas) and parentheses, a SELECT gives the rows of the relational joins, with the conditions evaluated on the columns they name, on which WHERE is TRUE, with the SELECT list evaluated on each, grouped, ordered and cut as written.", "quantifier": "every FROM clause, every join condition, every naming of the tables, all contents of the tables, every SELECT list, WHERE, GROUP BY and ORDER BY", "why_tests_cant": "which column a name resolves to, and from which side of the join it is read, depends on the order of tables and operands, on aliases and on names shared between tables; a test fixes one such choice", "anchors": ["src/sql/planner/plan_builder.rs: prepare_join_scan, process_table_with_joins, process_table_factor, build_select_plan_with_order_by", "src/sql/planner/logical_plan.rs: extract_join_keys, get_schema", "src/catalog/schema.rs: get_qualified_column_index, merge_with_aliases", "src/sql/execution/expressions/column_value_expression.rs: evaluate_join", "src/sql/execution/executors/nested_loop_join_executor.rs: next"]}
{"id": "C110", "title": "Subqueries are evaluated over their tables", "statement": "In a WHERE clause, EXISTS (SELECT ...) is TRUE exactly when the subquery has a row, x IN (SELECT ...) says whether x equals one of its values, and a comparison with (SELECT ...) uses its one value: the rows of its FROM on which its WHERE is TRUE.", "quantifier": "every subquery in EXISTS, IN or a comparison, all contents of the outer table and of the tables of the subquery", "why_tests_cant": "the answer must depend on the contents of another table for every content; a test with one content cannot tell a subquery that is evaluated from one that is ignored", "anchors": ["src/sql/execution/expression_parser.rs: parse_subquery, parse_setexpr, parse_select_statements, determine_subquery_type_and_return_type", "src/sql/execution/expressions/subquery_expression.rs: evaluate", "src/sql/execution/expressions/exists_expression.rs: evaluate", "src/sql/execution/expressions/in_expression.rs: evaluate_subquery"]}
{"id": "C111", "title": "CEIL and FLOOR of a timestamp find the unit's boundary", "statement": "FLOOR(t TO unit) is the last start of a second, minute, hour, day, month or year that is not after t, and CEIL(t TO unit) the first one that is not before t; other units are refused.", "quantifier": "every timestamp and every unit", "why_tests_cant": "the calendar has leap years and months of different length; a wrong rule for one year, or an integer that overflows in 2038, shows on few of the 2^64 timestamps", "anchors": ["src/sql/execution/expressions/ceil_floor_expression.rs: evaluate, timestamp_to_date, date_to_timestamp", "src/sql/execution/expression_parser.rs: parse_expression (Ceil, Floor)"]}
{"id": "C112", "title": "EXTRACT gives the named part of a date and time", "statement": "EXTRACT(field FROM x) is the year, month, day, hour, minute, second, quarter, day of the week (0 is Sunday), day of the year or epoch of the date and time x.", "quantifier": "every valid date and time, as text or as a TIMESTAMP, and every field", "why_tests_cant": "each field has its own arithmetic over the calendar, and wrong values appear on particular days or after particular years only", "anchors": ["src/sql/execution/expressions/extract_expression.rs: evaluate, extract_from_timestamp"]}
{"id": "C113", "title": "Literals of dates and times compare in the order of time", "statement": "TIMESTAMP, DATE and TIME literals stand for their seconds since 1970, or since midnight, and comparing two of them with any operator gives the order of the dates and times they name.", "quantifier": "every pair of valid dates and times from year 0 to 9999, all six comparison operators", "why_tests_cant": "the order must hold between any two of all dates, in particular across the epoch where the unsigned representation wraps", "anchors": ["src/sql/execution/expressions/typed_string_expression.rs: evaluate", "src/types_db/value.rs: compare_less_than, Timestamp"]}
{"id": "C114", "title": "CAST keeps the value", "statement": "`CAST(e AS t)` gives the value of `e` in the type `t`: NULL stays NULL, a value of that type is unchanged, a whole number becomes the same number, a decimal becomes the nearest whole number, a text becomes the same text cut to the given length, and a value that has no counterpart in `t` is refused. The result does not depend on whether the CAST stands in a WHERE clause or a join condition.", "quantifier": "every expression, every row, every value of its operand, every target type, in and outside join conditions", "why_tests_cant": "Tests try a handful of values; rounding at halves, the limits of the types and the pairs of types form a space no test list covers.", "anchors": ["src/sql/execution/expressions/cast_expression.rs CastExpression::evaluate, evaluate_join", "src/sql/execution/expression_parser.rs Expr::Cast", "src/types_db/value.rs cast_to"]}
{"id": "C115", "title": "Function calls compute their function", "statement": "`UPPER` and `LOWER` give the text in that case and NULL for NULL, and every scalar function the parser accepts (`ABS`, `ROUND`, `CONCAT`, `SUBSTRING`, ...) has a value on proper arguments.", "quantifier": "every function name in any spelling, every argument list, every row, in and outside join conditions", "why_tests_cant": "A test calls a function on a few texts; the claim is about every text, every function name and every argument.", "anchors": ["src/sql/execution/expressions/function_expression.rs FunctionExpression::evaluate, evaluate_join", "src/sql/execution/expressions/function_types.rs get_function_type"]}
{"id": "C116", "title": "Compressed data comes back", "statement": "Decompressing what the compression engine made of some data gives the data back, for every algorithm and level, and the sizes it reports are the sums over all calls.", "quantifier": "every byte string, algorithm, level and history of earlier calls", "why_tests_cant": "the fallback decoder reinterprets particular byte patterns that no sample need contain", "anchors": ["src/storage/disk/async_disk/compression.rs: CompressionEngine::compress_data, decompress_data"]}
{"id": "C117", "title": "Serializable transactions are serializable", "statement": "If all transactions run at the level SERIALIZABLE, the values the committed ones read and the rows they leave are those of some order in which they run one after the other.", "quantifier": "every interleaving of calls of any number of transactions, every choice of which commit and which roll back", "why_tests_cant": "anomalies such as write skew need a particular overlap of reads, writes and commits", "anchors": ["src/concurrency/transaction_manager.rs: begin, commit, abort", "src/storage/table/transactional_table_heap.rs: get_tuple, insert_tuple, update_tuple, delete_tuple"]}
{"id": "C118", "title": "Array subscripts and slices", "statement": "`a[i]` is the element of the array at position i, counted from 0, or from the end if i is negative, and an error if there is no such position; `a[l:u]` is the array of the elements at the positions from l on and before u; `s.f` is the field f of a STRUCT.", "quantifier": "every array, index, pair of bounds and chain of accesses", "why_tests_cant": "the boundary cases depend on the length of the array and the integer type of the index", "anchors": ["src/sql/execution/expressions/subscript_expression.rs: evaluate", "src/sql/execution/expressions/map_access_expression.rs: access_value", "src/sql/execution/expression_parser.rs: CompoundFieldAccess"]}
{"id": "C119", "title": "SIMILAR TO matches the whole text", "statement": "`v SIMILAR TO p` is true exactly if the pattern p, with % for any text, _ for any character, brackets for sets, the operators of the standard and an escape character, matches the whole of v; NOT SIMILAR TO is the opposite; both are NULL if an operand is NULL.", "quantifier": "every text, pattern and escape character", "why_tests_cant": "patterns and texts are unbounded, and the pattern goes through a translation into another pattern language", "anchors": ["src/sql/execution/expressions/regex_expression.rs: convert_similar_to_pattern, evaluate"]}
{"id": "C120", "title": "CONVERT keeps the value or fails", "statement": "`CONVERT` gives the number or text of its operand in the other type, and fails if the type cannot hold it; `TRY_CONVERT` gives NULL instead of failing; NULL stays NULL.", "quantifier": "every operand value and target type, in and outside join conditions", "why_tests_cant": "the ranges of the types are too large to enumerate", "anchors": ["src/sql/execution/expressions/convert_expression.rs: evaluate, evaluate_join", "src/types_db/value.rs: cast_to"]}
{"id": "C121", "title": "Direct I/O moves exactly the bytes asked for", "statement": "A direct write that succeeds puts its bytes at the offset and changes no other byte; a direct read that succeeds gives the bytes of the file at the offset; what was written is read back; a misaligned request is refused without effect; with direct I/O on every call to the operating system is aligned; and requests within the file succeed when the operating system reports no error.", "quantifier": "every file, offset, length, buffer address, alignment and way the operating system cuts a transfer into short ones", "why_tests_cant": "the operating system may stop a transfer after any number of bytes, any number of times", "anchors": ["src/storage/disk/direct_io.rs: read_aligned, read_aligned_into, write_aligned, read_exact_at, write_all_at, round_up_to_alignment"]}
{"id": "C122", "title": "The write coalescer is bounded and current", "statement": "The table of recent page writes never holds more than its limit of pages, holds for each the data of its last write, hands the data of every write on unchanged, and drops the oldest writes when it is full; a cleanup removes what is older than the window and nothing else; the neighbours it lists are exactly the pages held within a distance of four.", "quantifier": "every history of writes, cleanups and clears, at any times and in any order in which the hash tables are walked", "why_tests_cant": "the bound and the agreement of the three tables must hold after every history", "anchors": ["src/storage/disk/async_disk/memory/coalescing/engine.rs: try_coalesce_write, simple_cleanup, cleanup_expired_writes, find_adjacent_pages", "src/storage/disk/async_disk/memory/write_manager.rs: try_coalesce_write"]}
{"id": "C123", "title": "Statements outside a transaction act on a table wholly or not at all, one after another", "statement": "When a client sends INSERT, UPDATE and DELETE statements outside a transaction, each one that succeeds has done all of its work, and each one that is answered with an error has done none of it: after any sequence of statements a scan of the table yields exactly the rows that the answered statements, applied one after another to a list of rows, leave.", "quantifier": "every table, every sequence of INSERT, UPDATE and DELETE statements, every expression in them, every way rows are spread over pages, every order in which the write sets are walked", "why_tests_cant": "A failed statement is rolled back row by row from what its transaction noted, and each commit marks rows the next statement relies on. Whether the table holds the right rows depends on the whole history; tests run two or three statements on a page with free space.", "anchors": ["src/common/db_instance.rs: DBInstance::execute_sql", "src/concurrency/transaction_manager.rs: TransactionManager::commit, TransactionManager::abort", "src/storage/table/transactional_table_heap.rs: insert_tuple, update_tuple, delete_tuple, rollback_tuple", "src/catalog/database.rs: create_table, load_tables_from_catalog"]}
{"id": "C124", "title": "An expression has the value SQL gives it, from its text to its value on a row", "statement": "A well-typed SQL expression over the columns of a row - built from columns, literals, arithmetic, ||, comparisons, AND, OR, NOT, IS tests, BETWEEN, IN and CASE, nested in any way - is accepted, evaluates on every row, and gives the value SQL defines for it: NULL spreads through operators, logic has three values, a CASE takes the first branch whose condition is TRUE. The value has the type that was computed for the expression.", "quantifier": "every well-typed expression of any size and nesting, every row of its columns' types, NULLs included", "why_tests_cant": "The parser decides types, inserts casts and rewrites BETWEEN and IN before anything is evaluated, and the evaluation of an operator depends on the widths and the NULLs its operands produce. Tests try each operator alone on fixed values; the nestings and the rows are unbounded.", "anchors": ["src/sql/execution/expression_parser.rs: ExpressionParser::parse_expression", "src/sql/execution/expressions/literal_value_expression.rs: LiteralValueExpression::new", "src/sql/execution/expressions/arithmetic_expression.rs: ArithmeticExpression::infer_return_type", "src/sql/execution/expressions/unary_op_expression.rs: UnaryOpExpression::new", "src/sql/execution/expressions/case_expression.rs: CaseExpression::new"]}
{"id": "C125", "title": "Transactions act on a table wholly or not at all", "statement": "For every sequence of requests of one client on a table, with any mix of begin, commit, rollback and INSERT, UPDATE and DELETE statements in and outside transactions: in a transaction the client works on the rows its own statements have left; a commit keeps all of them; a rollback brings back exactly the rows at the begin of the transaction; and a statement that is answered with an error has changed nothing, in a transaction as well as outside.", "quantifier": "Every history of requests of one client, every table content, every order in which the write set of a transaction is gone through at its end, every row on which a statement fails.", "why_tests_cant": "What a rollback has to bring back depends on everything the transaction did before; the failures need several statements on one row, or a failure at a particular row.", "anchors": ["src/common/db_instance.rs: handle_network_query, handle_begin_transaction, handle_commit, handle_rollback", "src/concurrency/transaction_manager.rs: begin, commit, abort", "src/storage/table/transactional_table_heap.rs: insert_tuple, update_tuple, delete_tuple, rollback_tuple"]}
{"id": "C126", "title": "The top rows of each group", "statement": "A plan for the top n rows of each group gives, for every group that occurs in the input, the n rows of the group with the greatest sort keys (all of them, when there are fewer), greatest first; rows of different groups are not mixed, and the groups come in ascending order of their keys. A failure of the input or of a key expression is reported.", "quantifier": "Every input of any length below the plan, every n, every set of group and sort expressions, every order in which the hash map and the heap give their entries.", "why_tests_cant": "Which rows are kept depends on the order of the whole input and on ties; the order of hash map and heap is not fixed.", "anchors": ["src/sql/execution/executors/topn_per_group_executor.rs: init, next, compare_group_keys, TupleWithKeys::cmp", "src/sql/execution/plans/topn_per_group_plan.rs: TopNPerGroupNode"]}
{"id": "C127", "title": "ROW_NUMBER numbers the rows of each partition", "statement": "A plan with window functions gives every input row once, followed by one value for each function. ROW_NUMBER is the position, from 1 on, of the row in its partition, in the order of its sort keys; each function has its own partition and order; the other functions have their SQL values. A failure of the input is reported.", "quantifier": "Every input of any length below the plan, every list of functions, every order in which the hash map and the heap give their entries.", "why_tests_cant": "The numbers depend on all the rows of the partition; a second function with another partition occurs in no test.", "anchors": ["src/sql/execution/executors/window_executor.rs: init, next, evaluate_partition_keys, evaluate_sort_keys", "src/sql/execution/plans/window_plan.rs: WindowFunction, WindowNode"]}
{"id": "C128", "title": "A column holds what its declared type allows", "statement": "CREATE TABLE either refuses the type written for a column or gives the column a type which holds exactly the data that SQL says the declared type allows: the range of an integer type, the length of a character type, the digits of a decimal type. INSERT never stores anything else.", "quantifier": "Every declared type with every length, precision and scale; every INSERT, every expression and value in it, every state of the table.", "why_tests_cant": "There are over a hundred type names with numbers of any size, and expressions give values of any size; tests store small values.", "anchors": ["src/sql/planner/schema_manager.rs: convert_sql_type, extract_precision_scale, create_column_from_sql_type_with_constraints, convert_column_defs", "src/catalog/column.rs: from_sql_info, ColumnBuilder::build"]}
{"id": "C129", "title": "Calls on the buffer pool return whatever the other threads do", "statement": "Several threads create, fetch, read, write, flush, drop and delete pages of one buffer pool at the same time. Every call returns: threads never wait for each other for ever, and a thread that has the pool to itself sees what the calls do one after the other.", "quantifier": "Every number of threads and calls, every state of the pool, every order in which the threads take and release the locks, every failure of the disk.", "why_tests_cant": "A deadlock needs a particular interleaving of two, three or four threads at the level of single lock operations; tests run a few schedules.", "anchors": ["src/buffer/buffer_pool_manager_async.rs: new_page, fetch_page, unpin_page, write_page, flush_page, delete_page, flush_dirty_pages_batch_async, get_available_frame, evict_page_if_necessary", "src/storage/page/page_guard.rs: drop_pin, PageGuard::new", "src/storage/index/b_plus_tree_index.rs: insert"]}
{"id": "C130", "title": "The buffer pool used by several threads keeps its books and loses no write", "statement": "Several threads create, fetch, read, write, flush, drop and delete pages of one buffer pool at the same time. At every moment a page somebody has a guard for is in exactly one frame, and all guards of a page show the same bytes. When all calls have returned the page table, the frames, the free list, the guards and the pin counts agree, and what was written to a page is what a later fetch shows.", "quantifier": "Every number of threads and calls, every pool reached by calls, every order in which the threads take their steps, every failure of the disk.", "why_tests_cant": "The failures need one thread to stop between two particular steps of a call; tests run a few schedules.", "anchors": ["src/buffer/buffer_pool_manager_async.rs: new_page, fetch_page, unpin_page, flush_page_async, delete_page, load_page_from_disk, update_page_metadata", "src/storage/page/page_guard.rs: drop_pin, PageGuard::new, write"]}
{"id": "C131", "title": "A log record states its size", "statement": "The size a log record reports is the number of bytes it is written to the log with.", "quantifier": "All kinds of records and all contents, before and after the log manager has numbered the record.", "why_tests_cant": "The size is part of what is encoded and its own encoding has a variable length, so it is a fixed point that depends on every field.", "anchors": ["src/recovery/log_record.rs: refresh_size_from_encoding, set_lsn, get_size, to_bytes"]}
{"id": "C132", "title": "The text shown for a value is its notation", "statement": "The text the command line client prints for a value is the notation of that value: `true` or `false`, the number in decimal, the text itself, the date, the time of day, the length of time, the bytes in hexadecimal. Two different values of a column are printed differently.", "quantifier": "All values of all types, arrays of any length included.", "why_tests_cant": "There are infinitely many values of each type, and the claim that two are never printed alike is about all pairs.", "anchors": ["src/types_db/value.rs: Display for Value", "src/types_db/const_len_type.rs: normalize_string, to_string", "src/types_db/interval_type.rs: format_interval", "src/types_db/date_type.rs: as_naive_date, to_string", "src/types_db/time_type.rs: to_string", "src/common/result_writer.rs: write_row"]}
{"id": "C133", "title": "The bytes of a value are read back as the value", "statement": "A value turned into bytes and read back with the type of its column is the same value, and it takes as many bytes as it says it takes.", "quantifier": "All values of all types, with any bytes following those of a value of fixed width.", "why_tests_cant": "The claim is about every value and every sequence of bytes that may follow it.", "anchors": ["src/types_db/value.rs: get_storage_size, as_bytes, deserialize_from"]}
{"id": "C134", "title": "A lock with which nobody's lock conflicts is granted", "statement": "A transaction that has released nothing and asks for a lock on a table, or on a row of a table it has locked suitably, gets the lock at once if no other transaction holds a lock in conflict with it; what it holds already never stands in the way.", "quantifier": "All histories of the lock manager, all transactions, modes, tables and rows.", "why_tests_cant": "The answer depends on all requests that are in the queue, and so on every history before.", "anchors": ["src/concurrency/lock_manager.rs: grant_lock, compatible_with_existing_locks, validate_lock_request, lock_table, lock_row"]}
{"id": "C135", "title": "A SELECT answers from what the statements before it left", "statement": "Let one client send INSERT, UPDATE, DELETE, SELECT, BEGIN, COMMIT and ROLLBACK requests to a database of several tables in any order. Each reply is the one SQL gives: a SELECT over any join of the tables, with WHERE, GROUP BY, ORDER BY and LIMIT, answers from exactly the rows that the statements before it, those of its own open transaction included and those of rolled back ones not, have left in each table.", "quantifier": "All histories of requests of one client, all tables, statements and SELECTs.", "why_tests_cant": "The answer to a SELECT depends on all requests before it, and goes through parser output, planner, optimizer, executors, the table pages and the rollback of transactions; tests try a few histories.", "anchors": ["src/server/db_instance.rs: handle_network_query, handle_begin_transaction, handle_commit, handle_rollback", "src/sql/execution/execution_engine.rs: execute_sql", "src/sql/execution/executors/seq_scan_executor.rs: next", "src/transaction/transaction_manager.rs: begin, commit, abort"]}
{"id": "C136", "title": "Arithmetic on DECIMAL and FLOAT gives the nearest number", "statement": "For +, -, * and / with a DECIMAL and another number, or with a FLOAT and an integer or FLOAT, the result is the number of that type nearest to the exact result (of two, the one with an even last bit), exact if the type can hold it; a division by zero is an error; NaN and infinities follow IEEE 754.", "quantifier": "All pairs of numbers of all numeric types, all four operations.", "why_tests_cant": "There are 2^128 pairs of DECIMALs; wrong roundings show on a few of them.", "anchors": ["src/sql/execution/expressions/arithmetic_expression.rs: evaluate, evaluate_join", "src/sql/execution/expressions/unary_op_expression.rs: evaluate"]}
{"id": "C137", "title": "Clients that keep apart do not disturb each other", "statement": "Let any number of clients send INSERT, UPDATE, DELETE, SELECT, BEGIN, COMMIT and ROLLBACK requests in any order, and let connections end at any point. As long as no client uses a table on which the open transaction of another client has had a statement, every client gets the replies SQL gives: it sees the rows last committed by anyone, with the changes of its own open transaction, and nothing else; its COMMIT makes exactly its changes visible to all; its ROLLBACK, or the end of its connection, takes back exactly its changes. (In full the property would say this of any tables.)", "quantifier": "All numbers of clients, all histories of their requests and disconnections, all tables.", "why_tests_cant": "The replies depend on how the requests of several clients interleave and on the sessions, rows and notes that open transactions leave behind; tests try one or two interleavings.", "anchors": ["src/common/db_instance.rs: handle_network_query, handle_begin_transaction, handle_commit, handle_rollback, create_client_session, remove_client_session", "src/server/connection.rs: handle_connection", "src/concurrency/transaction_manager.rs: begin, commit, abort"]}
{"id": "C138", "title": "A table may be used by several threads at once", "statement": "Let any number of threads insert rows into a table, change and delete rows, commit and abort row by row, and scan the table, all at once. Whatever the interleaving: the rows of the table are at every moment those that the calls answered so far make, one after another; every inserted row gets a record id of its own and stays; a scan returns the rows in the order of the table, none twice, each as it stood at some moment of the scan, and every row that was there throughout. (In full the property would also say that a change is allowed on the row as it stands when it is made, and that a scan shows the table at one moment.)", "quantifier": "All tables, all numbers of threads, all calls, all interleavings of their accesses to pages and to the fields of the table.", "why_tests_cant": "The number of interleavings of page accesses is unbounded, and the windows in which a new page is linked but empty, or a row was checked but not yet written, are short; tests do not meet them.", "anchors": ["src/storage/table/table_heap.rs: insert_tuple_from_values, create_new_page_and_insert_from_values, create_first_page_and_insert, update_tuple_internal, get_tuple_internal, get_first_page_id, get_next_page_id", "src/storage/table/table_iterator.rs: TableScanIterator::new, TableIterator::initialize, advance, next", "src/storage/table/transactional_table_heap.rs: update_tuple, delete_tuple", "src/concurrency/transaction_manager.rs: commit, abort (page writes)"]}
{"id": "C139", "title": "Booleans, moments and documents survive casts", "statement": "A boolean, timestamp, date, time, interval, JSON document or UUID cast to VARCHAR or CHAR and back to its type is the same value. TRUE and FALSE cast to a numeric type are 1 and 0 and cast back to themselves. A timestamp, date, time or interval cast to INTEGER or BIGINT is its number or an error, and a number cast to TIMESTAMP and back is the same number. A text cast to BOOLEAN is TRUE when it is true, t, 1, yes or y, FALSE when it is false, f, 0, no, n or empty, in small letters or capitals, and an error otherwise.", "quantifier": "all values of these types and all target types", "why_tests_cant": "2^64 values per type and unbounded texts.", "anchors": ["src/types_db/value.rs: cast_to"]}
{"id": "C140", "title": "date_trunc, date_part and make_date agree with the calendar", "statement": "date_trunc of a date and time is the last beginning of the unit that is not after it, date_part is the field it names, and make_date and make_timestamp give the text of the date and time their arguments make up, or an error if there is none.", "quantifier": "all dates and times, given as text or timestamps, all units and fields, all integers", "why_tests_cant": "Every second of ten thousand years, and errors occur on single days only.", "anchors": ["src/sql/execution/expressions/datetime_expression.rs: evaluate_date_trunc, evaluate_date_part, evaluate_make_date, evaluate_make_time, evaluate_make_timestamp"]}
{"id": "C141", "title": "Moments and intervals add up", "statement": "A moment plus or minus an interval is the moment that much later or earlier, subtracting an interval that was added gives the moment back, and the difference of two moments is the time between them.", "quantifier": "all moments, given as text or timestamps, and all ISO 8601 durations", "why_tests_cant": "Unbounded texts and every second of ten thousand years.", "anchors": ["src/sql/execution/expressions/datetime_expression.rs: parse_iso8601_duration, evaluate"]}
{"id": "C142", "title": "A session from an empty database", "statement": "From an empty database on, a client that creates tables and names them in its statements gets the replies of a database in which each name stands for the columns declared and a list of rows: CREATE TABLE makes a table without rows or reports an error and changes nothing, INSERT, UPDATE and DELETE change the table of their name and no other, SELECT answers from the tables of its FROM clause as the requests before have left them, and a statement that names no table is an error.", "quantifier": "all sequences of CREATE TABLE, INSERT, UPDATE, DELETE, SELECT, BEGIN, COMMIT and ROLLBACK, all names, columns, rows and replies", "why_tests_cant": "Unbounded histories over unboundedly many tables.", "anchors": ["src/common/db_instance.rs: DBInstance::handle_network_query", "src/catalog/database.rs: Database::create_table", "src/sql/planner/plan_builder.rs: build_create_table_plan, process_table_factor, build_insert_plan, build_update_plan, build_delete_plan"]}
{"id": "C143", "title": "A session in the values of SQL", "statement": "From an empty database on, a client that creates tables with BOOLEAN, integer and VARCHAR columns (with IF NOT EXISTS, a table that is there stays as it is) and sends statements with SQL expressions gets the replies of a database of lists of SQL values: INSERT adds a row of the values of its expressions, in the columns it lists and NULL in the others when it has a list of columns, or is an error because a value cannot be computed or kept, DELETE removes the rows on which WHERE is TRUE, UPDATE gives these rows the values of its assignments, computed on the old row, SELECT computes its items on these rows, of a table or of a join (each pair of rows with equal values that are not NULL, and with LEFT, RIGHT and FULL JOIN each row of that side without such a pair with NULLs), in an order by the columns of ORDER BY with their directions (NULL before all values) and, without ORDER BY, in that of the table, and LIMIT and OFFSET cut a page out of it, SELECT DISTINCT has each of these rows once, in the order asked for, SELECT with GROUP BY has one row for each different value of the GROUP BY columns among the rows on which WHERE is TRUE, with COUNT, SUM, MIN and MAX over exactly the rows of that group, and one row for all of these rows without GROUP BY, and COMMIT and ROLLBACK keep or undo all of it; a statement is refused if and only if a table or column is missing, the number of values is wrong or an expression is not one Ferrite accepts.", "quantifier": "all sequences of CREATE TABLE, INSERT, UPDATE, DELETE, SELECT over tables and joins, BEGIN, COMMIT and ROLLBACK, all well-typed expressions, all values", "why_tests_cant": "Unbounded histories, nested expressions, tables and values.", "anchors": ["src/sql/planner/plan_builder.rs: build_insert_plan, build_values_plan, build_update_plan, build_delete_plan, build_select_plan", "src/sql/planner/expression_parser.rs: parse_expression", "src/sql/execution/execution_engine.rs: ExecutionEngine::execute_sql"]}
{"id": "C144", "title": "An index join gives what a nested loop join gives", "statement": "Joining two tables through an index of the right table gives each pair of rows that meets the join condition once, as a nested loop join does, in the order of the left rows, whether or not a suitable index exists.", "quantifier": "all left inputs, all right tables and indexes, all join conditions and key expressions", "why_tests_cant": "Unbounded tables and conditions; every left row opens its own lookup.", "anchors": ["src/sql/execution/executors/nested_index_join_executor.rs: next, get_next_inner_tuple, create_right_executor, evaluate_predicate"]}
{"id": "C145", "title": "The constraint validator lets no violation through", "statement": "Of the tuples a constraint validator accepts, none has a NULL in a NOT NULL column, no two have the same value in a UNIQUE column or the same primary key of a table, every CHECK holds, and a value of a foreign key exists in the map given; a tuple is refused for a UNIQUE column only if its value is taken.", "quantifier": "all sequences of tuples, tables, schemas and values", "why_tests_cant": "The validator keeps state over an unbounded sequence of tuples.", "anchors": ["src/catalog/constraints.rs: ConstraintValidator::validate_tuple, validate_foreign_key, apply_defaults"]}
{"id": "C146", "title": "A session over the network", "statement": "A client that connects to an empty database and sends requests one after another hears, for each, what SQL says: the column names and rows of a SELECT, an error, or that there was none; afterwards the tables hold what the requests it has heard succeed have put there.", "quantifier": "all histories of requests of one client, all texts of SQL (for any parser), all expressions of the syntax tree, all ways in which the network cuts a response into pieces", "why_tests_cant": "Composes the wire format, the connection loop, the planner, the executors and transactions for unbounded histories.", "anchors": ["src/server/connection.rs: handle_client_connection, handle_client_request, send_response", "src/common/db_instance.rs: handle_network_query", "src/common/result_writer.rs: NetworkResultWriter", "src/sql/execution/execution_engine.rs: execute_sql, prepare_sql, validate_sql_syntax", "src/client/client_impl.rs: send_request, receive_response"]}
{"id": "C147", "title": "Pages of a hash table", "statement": "A block or bucket page of a hash table is a set of pairs of fixed capacity: a pair is taken unless it is there already or the page is full, keys need not be different, the place of a removed pair can be used again, and every pair that was taken is found under its key until it is removed. Threads may use a page at the same time; each call takes effect as a whole.", "quantifier": "all sequences of calls; all numbers of threads, all calls of each and all interleavings of their atomic steps; all key, value and comparator types and sizes", "why_tests_cant": "Lost updates and torn reads depend on the schedule; the capacity is exhausted only by long histories.", "anchors": ["src/storage/page/page_types/hash_table_block_page.rs: HashTableBlockPage", "src/storage/page/page_types/hash_table_bucket_page.rs: HashTableBucketPage", "src/storage/page/page_types/hash_table_page_defs.rs"]}
{"id": "C148", "title": "The directory of an extendible hash table", "statement": "The directory maps an index to what was last stored for it. The split image of an index differs from it in the highest bit of its local depth only, is an index of the directory, and has the index as its split image; the masks have as many ones as the depth says; the size is two to the global depth and never more than the entries there are; a directory of which every bucket has more than one pointer can be halved; and the integrity check finds a directory that breaks its rules.", "quantifier": "all directories reachable by calls, all indices and depths", "why_tests_cant": "Depths and indices range over all values; the failures are at boundary depths and after many doublings.", "anchors": ["src/storage/page/page_types/hash_table_directory_page.rs: HashTableDirectoryPage"]}
{"id": "C149", "title": "The size analysis of coalesced writes counts pages, gaps and bytes correctly", "statement": "For every list of pages, new data and pending writes, the size analysis of the write coalescer reports: the runs of consecutive page numbers among the listed pages, each listed page in exactly one run and no two runs touching; the gaps, which are exactly the pages between the least and the greatest listed page that are not listed; the number of data bytes, those of the new data and those pending for the listed pages; a total that is the bytes of the span (or of the listed pages, when more than half is missing) plus 32 bytes a run, 8 a page, 16 a gap, 64 of alignment a run and the padding to whole pages; and that the write is efficient exactly when the total is less than 5/4 of the data and the missing pages are at most 1/5 of it. Without other pages the total is the least multiple of 64 that holds the new data. The analysis never panics.", "quantifier": "all lists of pages, new data and maps of pending writes, with and without overflow checks", "why_tests_cant": "Unit tests look at a few lists of small page numbers; duplicated pages, page numbers far apart and new data larger than the span are not among them.", "anchors": ["src/storage/disk/async_disk/memory/coalescing/size_analyzer.rs: calculate_detailed_coalesced_size, build_page_ranges, analyze_page_gaps, calculate_effective_span, calculate_metadata_overhead, calculate_alignment_overhead, estimate_compression_savings, analyze_coalescing_efficiency, calculate_aligned_size, calculate_padding, validate_page_ranges", "src/storage/disk/async_disk/memory/coalescing/engine.rs: get_coalescing_size_analysis"]}
{"id": "C150", "title": "The disk metrics count what happened, under every schedule", "statement": "However the threads that record reads, writes, batches, flushes and cache look-ups interleave, once they are done every counter has grown by exactly what these calls add to it: operations, bytes, latencies, errors, hits and misses, and the histogram of latencies. The averages of a snapshot are the recorded time over the number of operations; a percentile is the least end of a bucket below which there are enough of the recorded latencies; the largest and the least latency are those recorded. After a reset everything but the caches counts from zero. The health score is between 30 and 100, and 100 only without errors, slow operations and frequent misses; a disk that reads without errors is not reported sick.", "quantifier": "all numbers of threads, calls per thread, latencies, sizes and interleavings of their atomic actions", "why_tests_cant": "The counters are updated without locks; unit tests record a handful of operations from one thread.", "anchors": ["src/storage/disk/async_disk/metrics/collector.rs: record_read, record_write, record_batch_operation, record_batch_read, record_batch_write, record_flush, record_cache_operation, record_cache_migration, update_latency_distribution, reset_metrics, calculate_health_score, get_percentile_latency, create_snapshot_from_live", "src/storage/disk/async_disk/metrics/live_metrics.rs: LiveMetrics", "src/storage/disk/async_disk/manager.rs: read_page, health_check"]}

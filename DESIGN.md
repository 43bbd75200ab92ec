# Formal model of ferrite in Lean 4: design

## What is trusted

* Lean 4.33.0's kernel. No `sorry`, `admit`, added axiom, `native_decide` or `bv_decide`.
  Every theorem depends on at most `propext`, `Classical.choice` and `Quot.sound`.
* The reading of the Rust source that each definition's comment cites (`file:lines`). The Rust code
  is not compiled, run or extracted: the link from code to model is by inspection, definition by definition.
* The Rust standard library pieces the code calls are modelled by their documented behaviour:
  `Vec`, `VecDeque`, `HashMap` (finite map, iteration order arbitrary: a theorem that depends on
  iteration order quantifies over it or takes it as a parameter), `Mutex`/`RwLock` (a method that holds one lock
  for its whole body is one atomic step), slice indexing out of range (a panic: an explicit error result).

## How the model is laid out

`lean/Verif/<Component>/Model.lean` - the code, function by function, every definition citing file and lines.
`lean/Verif/<Component>/Spec.lean` - the small independent specification, when the property needs one.
`lean/Verif/<Component>/Lemmas.lean` - invariants and helper lemmas.
`lean/Verif/<Component>/Props.lean` - the property theorems, each with a non-vacuity `example` beside it.

Small components put the four parts in one file under separate headings.

Theorem names start with the property id (`C08_...`). A theorem that proves only part of its property
ends in `_partial`. When the code does not satisfy the property as stated, a theorem whose name ends in
`_fails` proves the negation on a concrete reachable witness, and the `_partial` theorem states the
largest part that does hold.

## Modelling conventions

* Integers with wrap-around or range relevance are `Nat`/`Int` with the bound made explicit where the
  code depends on it; timestamps, ids and counters are `Nat` (overflow of 64-bit counters is out of scope, stated per definition).
* Threads: an object protected by one lock is a state machine whose steps are the public methods; "all schedules" is
  "all sequences of steps". Where a method releases the lock in between, it is split in several steps.
* Failure of I/O is an explicit parameter of the step.
* Logging, metrics, and `Display` code is not modelled.

## Plan per property

* **C01** Buffer replacer never evicts a protected frame and never misses an evictable one. Replacer state = finite map frame -> node, plus deque. Step function per method. Invariant: every evictable tracked frame occurs in the deque. Proved by induction over operations.
* **C02** Buffer replacer chooses the LRU-K victim. Same model; the scan loop of `evict` is a fold, shown to return a minimum of the documented key.
* **C03** FIFO cache is a bounded map evicting in insertion order. Queue of keys + map; refinement to a list of (key,value) in insertion order.
* **C04** LFU cache evicts a least frequently used entry and counts uses exactly. Map key -> (value, freq); eviction picks an arbitrary minimal entry, the choice is a parameter.
* **C05** Heap-based LFU cache behaves as an LFU cache. Map + list of (freq,key) heap entries; invariant: each live (key,freq) is in the heap; pop loop discards stale ones.
* **C06** LRU cache evicts the least recently used entry. Pointer-level model: a heap of nodes addressed by Nat with prev/next links plus the map; refinement to the recency list.
* **C07** Record identifiers survive their encodings. Bytes as Nat < 256 lists; direct arithmetic.
* **C08** Garbage-collection watermark never passes an active reader. State (active multiset-free set, watermark, next_ts); invariant by induction.
* **C09** Timestamps are unique and increasing, and the watermark never moves back. Trace semantics of issued timestamps.
* **C10** Lock modes conflict as documented. The 5x5 matrix against a specification by access rights (what a mode lets its holder read/write directly or below).
* **C11** Table locks exclude each other across transactions. Lock table as list of requests; the upgrade rule is modelled as in the code. Expected: false because IS->S and IX->X upgrades skip other holders; partial theorem without upgrades.
* **C12** Row locks exclude each other across transactions. Same model on rows; the re-request after failed upgrade is expected to break it; partial theorem otherwise.
* **C13** Deadlock detection reports exactly the deadlocks, and the victim is on the cycle. DFS with explicit visited/path sets over adjacency lists; soundness and completeness.
* **C14** A transaction sees its own writes and, otherwise, only versions committed before it began. Decision logic outright.
* **C15** Snapshot reads return the newest version committed before the snapshot. Version chain as list; walk function; newest-visible specification.
* **C16** Rollback restores every row the transaction changed. Heap rows + undo log per transaction; abort loop. Expected: false for rows written twice; partial for rows written once.
* **C17** Finished transactions are forgotten only when no reader can need them. Filter on a transaction table; statement about all readers at or above the watermark.
* **C18** Committed state appears atomically to new snapshots. Commit as a sequence of steps interleaved with begin. Expected: false; partial: snapshots taken before commit timestamp or after the last stamp.
* **C19** Extendible hash directory stays well formed under splits. Directory as two functions on indices < 2^gd; split as in the code; invariant by induction over splits.
* **C20** Hash table lookups return what was inserted. Directory + buckets; insert with split. The redistribution test compares the masked hash with the full index; expected false in general, partial when it does not matter.
* **C21** Removing from the hash table removes only that key. As 20; merge as in the code.
* **C22** Index range scan returns exactly the keys in range, in order. In-memory tree as inductive node type with leaf chain; insert by splitting; scan. Refinement to a sorted list.
* **C23** B+ tree stays balanced and ordered. Same model; shape invariant.
* **C24** Index delete removes exactly one entry. delete/rebalance as in the code; internal merge drops a separator twice: witness; partial for leaf-only shapes.
* **C25** Index iterator yields each matching entry once. Iterator over an abstract scan function; re-fetch from last key.
* **C26** Buffer pool bookkeeping is consistent. Pool state machine with page table, frames, free list, replacer; I/O outcome parameter.
* **C27** Pages written through the pool are read back unchanged. Same model with disk contents; refinement to a page-content map.
* **C28** A failed page load does not shrink the pool. Same model; load failure step.
* **C29** Log sequence numbers are unique and increasing, and commits are durable when acknowledged. event system of appenders and flush task with I/O errors; invariant that file, batch and channel together are the numbered log; crash as any cut at or after the synced part, read back with the reader of C30.
* **C30** Log records survive framing and the reader stops at the torn tail. byte-level model of the encoder, the frame and the reader's retry loop; induction over the records.
* **C31** Crash recovery keeps committed and drops uncommitted changes. record-level model of the three passes; histories of transactions under strict locking as specification; refinement for update logs, witnesses for the rest.
* **C32** Tuples on a page never overlap and keep their contents. byte-level model of the page (directory, row bodies, refreshing on insert); invariant that rows are apart, in the page and hold the encoded row; refinement to a list of rows.
* **C33** SQL logic follows three-valued truth tables. one evaluator `eval` for expression trees, row and join mode; induction over AND/OR/NOT formulas, truth tables as min, max and opposite on false < null < true.
* **C34** IN and ANY/ALL follow three-valued quantifier semantics. loops of the three evaluators against the three-valued OR and AND of a list; permutation invariance; witness for ALL.
* **C35** LIKE matches exactly the strings its pattern denotes. token specification and matching relation; induction over the pattern.
* **C36** Substring and overlay cut where SQL says. byte slices with character boundaries as explicit panics; positions as specification.
* **C37** COALESCE, CASE, IS [NOT] DISTINCT and BETWEEN follow SQL semantics. on the evaluator; induction over argument lists and arms; witnesses for the parser's IS DISTINCT and NULL conditions.
* **C38** Integer comparison, equality, ordering and hashing of values agree. floats as IEEE bit patterns with exact comparison and conversion; equality reduced to equality of canonical forms by induction on nested values; order by the same induction; the number a float stands for as the specification of mixed comparisons.
* **C39** Casts between integer types never change a value silently. case analysis on the sixteen pairs of integer types, for every integer.
* **C40** LIMIT, OFFSET and WHERE return the right rows. executors as machines over any child; induction over the child's run.
* **C41** ORDER BY returns a sorted permutation. `sort_by` as a stable merge sort; the comparison shown total and transitive on keys that compare; NULL placement for integer keys.
* **C42** DISTINCT drops exactly the duplicate rows. row encoding to bytes as in the code, injective on rows of one shape of the five kinds it writes out; witnesses for NULL against -1 and 0.0 against -0.0.
* **C43** Nested-loop joins compute the relational join. the executor's state machine over any two children; drained output against the relational definition.
* **C44** Hash join computes the equi-join. the extendible hash table of the build side as buckets of pairs with the code's capacity; each probe gives the first match.
* **C45** Aggregates compute the SQL aggregate of each group. the executor's hash map of groups with the drain order left open; one theorem per aggregate about the column it reads.
* **C46** TOP-N returns the N first rows in order. bounded heap with the choices of the standard library left open; what is kept is a set of k greatest rows.
* **C47** Index scan returns the same rows as a filtered sequential scan. predicate to ranges to bounds as in the code; every row on which the predicate is TRUE has its key in the bounds; the machine over any iterator.
* **C48** LRU-K page cache evicts by K-distance. Same style as C04: entries with their access history, refinement to a specification that keeps call times.
* **C49** Releasing a lock returns and lets waiters in. The lock queue model has an explicit result for blocking forever; partial theorem with no waiter, witnesses for the hang and for the stuck upgrade marker.
* **C50** Force-releasing a transaction leaves nothing behind. Invariant: every granted request is recorded in the lock set of its transaction; then force release empties it. Witness for waiting requests.
* **C51** Row locks are taken and kept under a table lock. Decision logic of lock_row; the invariant of C50 gives the refusal of unlock_table when oid and page number coincide; witnesses otherwise.
* **C52** Two-phase locking. Invariant over runs: a shrinking transaction stays shrinking or aborted.
* **C53** Reads of a transaction come from one snapshot. Refinement to a specification with one committed state and private copies; invariant ties each row's chain of undo logs to the list of its committed versions.
* **C54** No lost updates and no dirty writes. Decision logic for uncommitted versions; witness for the lost update.
* **C55** Read committed returns the latest committed version. Decision logic; witness for the stale read.
* **C56** An UPDATE statement can change any row its transaction may write. The executor's call modelled with the creator it passes; witnesses for both wrong decisions.
* **C57** Garbage collection keeps what readers need. Witness: the committed version of a row becomes unreadable.
* **C58** A lock request takes no lock away. Set of granted requests of a queue before and after grant_lock; witness for the refused upgrade.
* **C59** Hash index contents survive leaving the buffer pool. Byte-level model of the page with an abstract key encoding; round trip of the two functions, and for every contents the actual write and reload path.
* **C60** A write is not lost when writing it out fails. pool model: one step for a failed flush, and a run with a failing write at eviction.
* **C61** Flushing all pages puts memory on the disk. pool model: `flush_all` as a fold over the page table; invariant over the pages already flushed.
* **C62** Guards of the same page share its content. pool model: from the invariant of C26; overlapping fetches as look-up, look-up, load, load.
* **C63** Rows survive encoding. byte-level model of the wire format; mutual induction over nested values.
* **C64** What the log accepts stays readable. same model as C30, with appends after a cut.
* **C65** A page's bytes hold its rows. byte-level model of serialize and deserialize; prefix argument for the directory; witnesses for stale bytes and for the reload path.
* **C66** Integer arithmetic is exact or an error. one definition per evaluator on operand values, IEEE arithmetic on bit patterns; case analysis on type pairs for every integer; witnesses for the exchanged join operands and NULL.
* **C67** Integers survive the way through text. induction on decimal digits.
* **C68** Numeric casts never give a different number. the number a float stands for as specification; witnesses for saturation and rounding.
* **C69** Comparisons compare the numbers. cast and comparison composed; integers of all type pairs; the number a float stands for.
* **C70** A condition means the same in a join. mutual induction over expression trees.
* **C71** TRIM and POSITION. induction over the text.
* **C72** The optimizer does not change what a query returns. plans as trees compiled to the executor machines; a denotation `den` proved equal to running (`runs_iff`); each optimizer pass shown to keep the denotation by induction over plans; witnesses where it does not.
* **C73** A SELECT returns what SQL says it means. statements over named columns; the planner as a function to plans; names resolved against a specification of what they denote; composed with C72 and the executors' theorems C40-C45.
* **C74** An index does not change the answer of a query. a table with record ids and a snapshot of the B+ tree's scan; composed with C22 and C72.
* **C75** DELETE removes exactly the rows it selects. the heap as a chain of pages with slots (`Table h l`), the scan as a machine over it; invariant over the rounds of scan and deletion: the slots passed are changed as specified, the rest untouched.
* **C76** UPDATE changes exactly the rows it selects. same invariant as C75, with the assignments evaluated on the old row.
* **C77** A scan returns every row once with its record id. the scan visits the path of record ids of the chain; what it yields is computed by induction over the path.
* **C78** INSERT stores the rows it was given. INSERT from the column list to the slots: mapping by name, casts, the counter; the table grows behind (`Table.insert`).
* **C79** Declared constraints hold. from the rows INSERT adds, however it ends; witnesses for the constraints that are not checked.
* **C80** Stored values have the types of their columns. types followed through casts, mapping and the counter.
* **C81** A statement that fails has no effect. witness for several rows, theorem for one.
* **C82** The server handles the requests a client sends. the postcard encoding of requests with its decoder; every decoder is monotone (`Mono`), so no encoding is a proper prefix of another; the server loop over arbitrary reads.
* **C83** The client receives the response the server sent. the encoding of responses, the client's loop over arbitrary cuts; a decoder fails on every proper prefix of an encoding.
* **C84** Transactions of clients take effect as a whole or not at all. sessions and the states of transactions, with the outcome of statements and flushes as an arbitrary function of the history; refinement of a specification without transaction ids, by an invariant over all histories.
* **C85** No transaction outlives its session. part of the invariant of C84; that failing flushes change only the replies is proved separately, so that it needs no assumption on them.
* **C86** Prepared statements. witnesses, and the invariant that no statement is known as prepared.
* **C87** Transactions run at the isolation level asked for. invariant over all histories, those with transaction statements and PREPARE included: levels of sessions and transactions against the last BEGIN in the trace.
* **C88** A page reads as it was last written. Model the disk manager with its write buffer, the three cache levels, deduplication and the file (`Disk/Model.lean`); prove reads after a flush without cache, refute the general claim by four histories.
* **C89** What was written before a flush survives a crash. An invariant that ties buffer and file to the specification while every call succeeds, and a second one that bounds the contents a crash can leave.
* **C90** Every disk call comes back. Case analysis over the calls; concrete hanging calls for the default configuration.
* **C91** A read gives only what was written to that page. The invariant of C89 with the history's writes as the only contents, in every state reachable with any faults.
* **C92** A batch read is the reads of its pages. Chunks of a list flatten to the list; the loop over chunks equals the loop over pages.
* **C93** Concurrent flushes do not undo newer writes. A small-step model of tasks (`Disk/Tasks.lean`); invariant for flushes that do not overlap, and an interleaving that loses the newer write.
* **C94** The paged index finds what was inserted. Model the pages, their searches and splits (`PTree/Model.lean`); relate the pages to a height-indexed tree with a zipper for the place of a leaf (`PTree/Tree.lean`); an insert is an insert into the sorted list of entries, by induction over the path for the splits (`PTree/Grow.lean`).
* **C95** A range scan of the paged index is sorted and complete. The leaves of the tree are linked in order; the scan is a filter of the sorted list of entries.
* **C96** Removing a key from the paged index removes that key only. The same refinement for removals after which no page is rebalanced; concrete histories for the others.
* **C97** The paged index survives leaving the buffer pool. A descent reads only the pages of its path; concrete evictions that panic or empty the index.
* **C98** Concurrent calls on the paged index act as if made one at a time. A system of threads whose calls are cut between finding their leaf and working on it, with restarts of latched calls (`PTree/Concurrent.lean`); any schedule in which no page is made, split or emptied while another call holds on to a leaf answers like the calls in the order of their ends (invariant: every thread would find its leaf again); concrete interleavings that lose a key.
* **C99** Names mean the tables created under them. Model the maps of the catalog, the planner's treatment of names and the two executors (`Catalog/Model.lean`); an abstract state of databases, table names and columns (`Catalog/Spec.lean`); simulation by induction over the statements; an invariant for ids and first pages.
* **C100** Foreign keys refer to something. Invariant: foreign keys refer to columns of tables of the same database; tables never go away.
* **C101** Tables survive a restart. A restart builds a new catalog from the snapshot file only; no statement writes that file. With the file written, the rows rebuild the same maps.
* **C102** A statement that reports success has done what it says. Case analysis of each statement over all reachable catalogs.
* **C103** USE is for the client that says it. Only USE writes the database in use, which is one field for all clients.
* **C104** Disk operations are linearizable. A transition system with one event per atomic part of callers, workers, tracker and clean-up (`Io/Model.lean`); the history of calls, effects and answers; an invariant that every operation is in one place and every label comes after what it needs (`Io/Inv.lean`); the effects of each operation against byte positions (`Io/Spec.lean`).
* **C105** What was synced survives a crash. Files carry what was synced and the ranges written since; a crash keeps the bytes outside of them. Located effects in the history and kept ranges along the rest of the run (`Io/Durable.lean`).
* **C106** Priorities are kept. Where the two operations are while at most one worker is there, by induction over the run (`Io/Order.lean`); a witness with two workers; starvation by induction over the number of reads.
* **C107** Every disk call is answered. A measure that every part of work decreases, and an analysis of states in which no work is left (`Io/Progress.lean`); the timeout check for everything else.
* **C108** Appends to the log do not overlap. Without `write_log` the log only grows, and appends are atomic: the offset of each is the length at its moment.
* **C109** A SELECT over joined tables answers as SQL says. FROM trees (`Plan/From.lean`) are planned into the plans of `Plan/Model.lean`; the scope and the rows of a FROM by recursion (`Plan/FromSpec.lean`); induction over the tree with C43 for each join, agreement of the planner's names with the scope, and the theorems of C73 over any FROM plan (`Plan/FromProps.lean`).
* **C110** Subqueries are evaluated over their tables. Subqueries as the parser keeps them (`Plan/Subquery.lean`), evaluated on the rows of the outer query; the answers as filters of the outer rows, and theorems that the subquery's table plays no part (`Plan/SubqueryProps.lean`).
* **C111** CEIL and FLOOR of a timestamp find the unit's boundary. The calendar loops (`Time/Model.lean`) against a proleptic Gregorian calendar by sums of month and year lengths (`Time/Spec.lean`): invariants of the year and month loops, then least/greatest start (`Time/CeilFloorProps.lean`).
* **C112** EXTRACT gives the named part of a date and time. `Time/TextProps.lean`: the text parser reads back every valid date and time; each field against the calendar, with what `chrono` computes as a parameter that is right (`Chrono.Right`).
* **C113** Literals of dates and times compare in the order of time. `Time/TextProps.lean`: literals are the seconds of the calendar; lexicographic order of dates and times is the order of seconds; comparison of TIMESTAMP values from C32's model.
* **C114** CAST keeps the value. `Sql/CastExpr.lean` models `CastExpression` on the operand's value, with rounding defined on the bit pattern; `Sql/CastExprProps.lean` states rounding as `Nearest` on the exact number and proves the supported pairs; the refused pairs, the ignored length, the saturation and the different result in a join are proved as negations.
* **C115** Function calls compute their function. `callFn` in `Sql/CastExpr.lean`; case conversion is stated with Lean's `String.toUpper`/`toLower` for ASCII text; that no other name has a value is proved for every name and argument list.
* **C116** Compressed data comes back. Compression engine as functions on byte lists, the two library compressors as parameters. Proved for LZ4 and Zstd given lossless libraries, and for uncompressed data free of the bytes the decoder reinterprets. Witnesses for other uncompressed data.
* **C117** Serializable transactions are serializable. Serializability as a small specification: a log of calls and reads, and a plain map that goes through the acts of the committed transactions in some order. Proved by an invariant over logs on top of the refinement of C53: updaters are ordered by commit, readers are put where their snapshot is. Holds if no row an updater has read is changed by another one that commits before it. Witness: write skew at every level.
* **C118** Array subscripts and slices. Subscripts, slices, STRUCT and the loop of the parser over the access chain as functions on values. Elements and slices are specified by positions. Proved for arrays of fewer than 2^31 elements and numbers of 32 bits; slices only up to the end of the array. Witnesses for the rest.
* **C119** SIMILAR TO matches the whole text. The translation of a SIMILAR TO pattern into a regular expression as a function on character lists; the regex crate is a parameter that is assumed to read the small part of its syntax that the translation uses. Proved by reading the translation back into the pieces of the pattern. Witnesses for operators, ranges, line feeds, NULL and an empty escape.
* **C120** CONVERT keeps the value or fails. CONVERT on top of the casts of C39 and C67. Proved for whole numbers, NULL, digits and character sets. Witnesses for fractions and for COLLATE, which does nothing.
* **C121** Direct I/O moves exactly the bytes asked for. The two transfer loops by recursion over a script of what the operating system does, and the three entry points on top of them. Writes and reads by induction over the script against `Written` and `Has` of the I/O specification; alignment of calls if transfers are multiples of the alignment; progress if no error occurs. Witnesses for the last partial block, short transfers, and the panic on an alignment that is not a power of two.
* **C122** The write coalescer is bounded and current. The three hash maps as lists with different keys, the calls as functions with the walking order as a parameter, an invariant by induction over histories. The specification is the history: the last write of a page. A witness for the cleanup that drops live pages.
* **C123** Statements outside a transaction act on a table wholly or not at all, one after another. A history of statements on one table, with the notes each transaction takes, the loops of commit and abort over the write set in any order, and the registration of tables with the transaction manager (`Dml/History.lean`). The specification is a list of rows (`Dml/HistorySpec.lean`). Refinement by induction over the history: between statements every row is committed or deleted; an abort puts back each noted row; concrete runs for a rollback on a full page and for a table read back at a restart.
* **C124** An expression has the value SQL gives it, from its text to its value on a row. The parser from the syntax tree to a typed expression (`Sql/Parse.lean`), followed by the evaluator of `Sql/Expr.lean`. The specification (`Sql/ParseSpec.lean`) has SQL's values, its typing and its semantics as three recursive definitions that know nothing of widths, casts or rewritings. By induction over the syntax tree: what evaluates has SQL's value in the computed type; exactly which rows evaluate; exactly which trees are accepted.
* **C125** Transactions act on a table wholly or not at all. The requests of one client with the transaction of its session, whose notes grow with each statement (`Dml/Trans.lean`, over the statements of C123). The specification is the list of rows at the begin and the present list, in which the rows the transaction has written are marked (`Dml/TransSpec.lean`). Refinement by induction over the requests; the invariant of an open transaction says which slots are its own and that undoing its notes gives the rows at the begin. Concrete runs where a rollback leaves rows, where a failed statement leaves half of its work, and where a transaction cannot update its own rows.
* **C126** The top rows of each group. The executor as a machine over any child, with the order of the hash map and the choice of the heap left open (`Exec/PerGroup.lean`). The heap of a group is the fold of the step of C46 over the rows of the group; the result is a list of blocks, one for each different key. Concrete runs with a NULL key, a failing key and a failing input.
* **C127** ROW_NUMBER numbers the rows of each partition. The executor as a machine over any child (`Exec/PerGroup.lean`), with the heap popped until it is empty. Each partition is a permutation of its rows, ascending, numbered by index. Concrete runs with a second function, another function, no function and a failing input.
* **C128** A column holds what its declared type allows. `DataType` of the parser with all its variants, the table of `convert_sql_type` and what a column keeps (`Dml/Declared.lean`). A separate specification gives the data each declared type allows (`Dml/DeclaredSpec.lean`). The types for which both agree are determined completely; every expression is shown to give values in the ranges of their types, by induction over expressions, and with it every INSERT. Concrete INSERTs into VARCHAR(3), CHAR(2), TINYINT UNSIGNED, DECIMAL(3,1), INT128.
* **C129** Calls on the buffer pool return whatever the other threads do. Threads as programs of lock, unlock and action steps over parking_lot's read-write locks, where a waiting writer keeps out new readers (`Latch/Model.lean`). Every pool call as such a program with each lock taken and released where the code does (`Pool/Threads.lean`); a thread alone is shown to do what the sequential model of C26-C28 does. No infinite schedule by well-foundedness. Absence of deadlock by a judgement on programs, a lock order with per-thread tokens for free frames, preserved by every step. Deadlocks of the code by concrete schedules.
* **C130** The buffer pool used by several threads keeps its books and loses no write. On the programs of C129. An invariant that relates the books to what each thread has in the middle of its calls (tokens: a frame taken, a page object not yet in a frame, an object not yet in the page table, a pin without a guard, the right to fetch or delete a page), shown for each single step (`Pool/Books.lean`), and a judgement on programs that every call meets (`Pool/BooksLemmas.lean`, `Latch/Safe.lean`). Failures of the code by concrete schedules.
* **C131** A log record states its size. The encoding of `Wal/Record.lean`, where the stated size is one variable-length integer; the sizes tried grow and so does the length of that integer, at most four times, so five tries reach the fixed point (`Wal/Props.lean`).
* **C132** The text shown for a value is its notation. `display` in `Sql/Display.lean`, one case for each type; the specification `Says` relates a value to its notations without computing them. Proved that what is shown is a notation, and that a notation has one value (`Sql/DisplayProps.lean`). The text of floats is left to the standard library, calendar dates to `chrono` (given that it counts days right).
* **C133** The bytes of a value are read back as the value. `asBytes`, `fromBytes` and `storageSize` in `Sql/ValueBytes.lean`; a round trip by cases over the types, with two's complement integers of any width (`Sql/ValueBytesProps.lean`).
* **C134** A lock with which nobody's lock conflicts is granted. The model of `Verif/Locks` as it is; `Conflict` is the specification of C10. By cases over what the transaction holds: nothing, the same mode, one of the two unchecked upgrades, any other (whose request is taken out first), with the exclusion invariant for the uniqueness of its own lock (`Locks/GrantProps.lean`).
* **C135** A SELECT answers from what the statements before it left. The models of `Verif/Dml` (statements and transactions on table pages) and `Verif/Plan` (planner, optimizer, executors) put together: the sequential scans at the leaves of the executor tree read the table pages as the statements left them (`Plan.compileOn`, `Whole.seqScan`). The specification has a list of rows for each table, C125's state per table, and C109's meaning of SELECT over those lists. By induction over the requests, with the table invariant of C125 for each table and the fact that an executor tree over scans that yield certain rows yields what the plan denotes on these rows.
* **C136** Arithmetic on DECIMAL and FLOAT gives the nearest number. The model of the operations (`Verif/Sql/Arith.lean`, with IEEE arithmetic written out on the bits) against a specification in exact fractions: a float is a whole number of units, and a result is right if no float is nearer to the exact fraction. `ofDyadic` is shown to be nearest to every number that compares with multiples of half a unit in the last place as its argument does, which covers the sticky bit of the division (`FloatRound.lean`, `FloatOps.lean`, `DecimalProps.lean`).
* **C137** Clients that keep apart do not disturb each other. The server of C135 with a session per client (`Whole/Clients.lean`): a request acts on the shared tables with the transaction of its session. In the specification (`Whole/ClientsSpec.lean`) a table is a list of rows, or held by a client with the list before its transaction. Who holds what follows from the requests alone, so the condition that clients keep apart is one on the requests (`Apart`). By induction over the events; the invariant says that no client but the holder has notes on a table, so a free table can be taken for one at the begin of the transaction of any client. A concrete history shows a dirty read when the condition fails.
* **C138** A table may be used by several threads at once. Threads with program points over the pages of C77 (`HeapConc/Model.lean`): every access to a page or a field of the table is a step, the latch of the table is part of the state. The specification (`HeapConc/Spec.lean`) replays the history of calls and answers on a list of rows. By induction over the run: the invariant says what the writer under the latch knows of the chain (a new page that nothing leads to, a linked empty page, a first page without a last), and that the chain and its pages only grow; a scan keeps that all rows which were there throughout are returned or ahead of it.
* **C139** Booleans, moments and documents survive casts. On the existing model of `cast_to` (`Sql/Cast.lean`), by the round trip of decimal text. Timestamps from 2^63 on are C68_timestamp_fails.
* **C140** date_trunc, date_part and make_date agree with the calendar. `Time/Functions.lean` models the expression over a `chrono` that is a parameter: which dates exist, weekdays, adding seconds. `Clock.Right` says it implements the calendar of `Time/Spec.lean`; `clock` is an implementation computed from the calendar. Truncation is compared with all beginnings of the unit.
* **C141** Moments and intervals add up. The regular expression is modelled as a reader of optional numbers with letters; the text of every duration is proved to be read as its numbers, for all digit strings.
* **C142** A session from an empty database. The catalog of C99 and the server of C135 put together (`Whole/Named.lean`): tables are kept by number, statements name them, and the planner's view of a table is what the catalog files under its number. The specification (`Whole/NamedSpec.lean`) has no numbers but for the FROM clause, where any that tell the tables apart will do. By induction over the requests: a number not in the catalog has no rows and no notes, so a new table can be taken for an empty one that has been there all the time.
* **C143** A session in the values of SQL. The planner's parser of C124 put before the session of C142 (`Whole/Typed.lean`). The specification (`Whole/TypedSpec.lean`) knows only NULLs, integers, truth values and texts, and what expressions mean in `Sql/ParseSpec.lean`. Each request of it is the image of one of `Whole/NamedSpec.lean`: the rows keep values of the declared types, so the meaning of the parsed expression (C124) gives the rows a WHERE selects and the values an INSERT or UPDATE stores; a column an INSERT does not list is NULL (`Whole/TypedChange.lean`). Joins, GROUP BY, DISTINCT and ORDER BY are carried over from C73 and C109, whose rows are read as SQL values: by induction over the FROM clause (`Whole/TypedFrom.lean`), over the rows of a group (`Whole/TypedGroup.lean`) and over the keys of ORDER BY (`Whole/TypedSelect.lean`, `Whole/TypedDistinct.lean`).
* **C144** An index join gives what a nested loop join gives. The loop as a machine (`Exec/IndexJoin.lean`) over any left side and a right table with its indexes; induction over the rows of the two sides gives the list of joined rows, related to `pairs` of C43. For an equality of integer columns with NULLs the keys of the lookup are computed from the predicates (C47).
* **C145** The constraint validator lets no violation through. The validator with its two caches over abstract values (`Constraint/Model.lean`). The set of remembered texts only grows, and holds exactly the texts asked about; induction over the sequence.
* **C146** A session over the network. The bytes of a read go through the decoder of C82, the text through an abstract parser to the syntax tree of C143, the reply back through the encoder and the client's loop of C83 (`Whole/Wired.lean`). What the client is told is specified in `Whole/WiredSpec.lean` on top of `NextT`. Induction over the exchange, composing `typed_step`, `fromBytes_request` and `C83_response_partial`.
* **C147** Pages of a hash table. A call is a program of atomic steps (read or update a byte of a bitmap, or read or write a pair under the lock), threads interleave these steps (`HashPage/Model.lean`). Calls one after another refine a list of pairs (`C147_sequential_partial`); with threads, invariants over all schedules: a slot that one thread changes behaves as if it were alone although it shares bytes with others (`C147_slots_partial`), values come from pairs whose insertion was begun, and with one inserting thread nothing is torn or lost.
* **C148** The directory of an extendible hash table. Function by function in `HashPage/Directory.lean`, a panic is `none`. Bit-level lemmas on exclusive or and powers of two; an invariant over all sequences of calls for which calls panic.
* **C149** The size analysis of coalesced writes counts pages, gaps and bytes correctly. Model every function of size_analyzer.rs with 64-bit arithmetic that either panics or wraps (a parameter); prove that the ranges of different pages are their maximal runs (a specification shown to have one solution), that gaps are the missing pages, and the formula of the analysis, by induction over the sorted pages. Quotients are compared as rational numbers, which agrees with f64 below 2^52 bytes.
* **C150** The disk metrics count what happened, under every schedule. Model each call as its list of atomic actions and threads as interleaved lists; the counters by an invariant (counter plus what is still to be added is constant modulo 2^64) over all schedules, percentiles by induction over the buckets, the extremes by execution of one thread, with a schedule that loses the maximum as the counterexample.

## What is modelled so far

| Lean directory | Rust source | Not modelled there |
|---|---|---|
| `Verif/Watermark` | `src/concurrency/watermark.rs` | 64-bit overflow of the timestamp counter |
| `Verif/Replacer` | `src/buffer/lru_k_replacer.rs` | wall-clock microseconds: time is any non-decreasing sequence of call times |
| `Verif/Cache/Fifo` | `src/storage/disk/async_disk/cache/fifo.rs` | metrics |
| `Verif/Cache/Lfu` | `.../cache/lfu.rs` | metrics |
| `Verif/Cache/HeapLfu` | `.../cache/heap_lfu.rs` | metrics; the binary heap is a multiset with min extraction |
| `Verif/Cache/LruK` | `.../cache/lru_k.rs` | metrics |
| `Verif/Cache/Lru` | `.../cache/lru.rs` (`LRUCore`, and `ConcurrentLRUCache` as one step per call) | `Arc` reference counts; lock poisoning |
| `Verif/Rid` | `src/common/rid.rs` | `Display` |
| `Verif/Locks` | `src/concurrency/lock_manager.rs` | the detector thread's timing (it may report any victim at any time); condition variables, which nothing waits on; errors from a missing transaction |
| `Verif/Mvcc` | `src/concurrency/transaction_manager.rs`, `transaction.rs`, `src/storage/table/transactional_table_heap.rs`, `tuple.rs` (metadata), `update_executor.rs` (one row) | several tables; page space (a write to an existing row always fits); shutdown; locks taken on insert, whose refusal is ignored; states other than running, committed and aborted; timestamps are natural numbers |
| `Verif/Hash` | `src/container/disk_extendable_hash_table.rs`, `extendable_hash_table_{directory,header,bucket}_page.rs` | the hash function (any function); page guards' pin counts; keys' `postcard` bytes (any encoding); `increment/decrement_global_depth` as public calls |
| `Verif/BTree` | `storage/index/b_plus_tree.rs`: `new`, `insert`, `insert_non_full`, `split_child`, `find_insert_position`, `scan_range`, `scan_full`, `scan_key`, `delete`, `rebalance_after_delete` and its helpers; `storage/index/index_iterator_mem.rs`: `new`, `fetch_next_batch`, `next` | key extraction from tuples and its errors, locks, `validate`, statistics, `seek`, `next_back`, `reset`; comparisons of SQL values are a linear order (or the nullable comparisons in the witness) |
| `Verif/Pool` | `buffer/buffer_pool_manager_async.rs`: `new_page`, `new_page_with_options`, `fetch_page`, `load_page_from_disk`, `create_page_from_data`, `unpin_page`, `write_page`, `flush_page_async`, `flush_all_pages_async`, `delete_page`, `get_available_frame`, `evict_old_page`, `evict_page_if_necessary`, `update_page_metadata`, `write_page_to_disk_*`; `storage/page/page_guard.rs` | the disk manager below (a map from page numbers to the last bytes written), batch loads and flushes, `deallocate_page`, metrics, shutdown, interleavings inside a call except in C62, pages whose `set_data` does not restore their fields |
| `Verif/Wire` | postcard's wire format, the derived encodings of `types_db/value.rs` `Val`, `Size`, `Value`, `storage/table/tuple.rs` `Tuple`, `TupleMeta` | UTF-8 validity of strings (a string is its bytes), floats (bit patterns) |
| `Verif/Wal` | `recovery/log_record.rs` (fields, constructors, `to_bytes`, `from_bytes`), `log_iterator.rs` `next`, `log_manager.rs` (`append_log_record`, flush task, `perform_flush`, `shut_down`), `log_recovery.rs` (all of it, on records) | read errors other than end of file, time-outs, channel capacity, page space during recovery (an update of an existing row succeeds) |
| `TablePage/` | `storage/page/page_types/table_page.rs` (`new`, inserts, `update_tuple`, `update_tuple_meta`, links, `get_tuple`, `get_tuple_meta`, `serialize`, `deserialize`, `set_data`) | dirty flag and pin count, `update_tuple_in_place_unsafe`, `reset_memory` |
| `Sql/Value`, `Sql/Cast`, `Sql/Float` | `types_db/value.rs` (`PartialEq`, `PartialOrd`, `Hash`, the six `compare_*`, `cast_to`) | the hasher itself, printing and parsing of floats, dates and points, UTF-8 checks |
| `Sql/Arith` | `expressions/arithmetic_expression.rs` (`evaluate`, `evaluate_join` on operand values), `expressions/unary_op_expression.rs` (minus), `Value::modulo` | type inference and validation of expressions |
| `Sql/Expr` | `expressions/{logic,comparison,in,any,all,coalesce,case,is_check,is_distinct,between,array,binary_op(concat, modulo),column_value,constant}_expression.rs` (`evaluate`, `evaluate_join`), parser's number literals, BETWEEN, IS DISTINCT and IN lists | subqueries, functions, casts, dates, intervals, JSON, regular expressions, collations |
| `Sql/Strings` | `expressions/{like,substring,overlay,trim,position}_expression.rs`, parser's LIKE and TRIM | Unicode case folding beyond ASCII |
| `Exec/{Model,Join}` | `executors/{limit,offset,filter (WHERE),projection,sort,distinct,topn,nested_loop_join}_executor.rs`, draining loop of `execution_engine.rs` | RIDs, locks, creation of child executors, semi, anti and natural joins |
| `Exec/{HashJoin,Agg,IndexScan}` | `executors/{hash_join,aggregation,index_scan}_executor.rs` | locks, schema building; the index iterator is a parameter (its model is `BTree/Iter`) |
| `Plan` | `sql/planner/{plan_builder,logical_plan,schema_manager}.rs`, `sql/optimizer/optimizer_impl.rs`, `sql/execution/expression_parser.rs` (names), `catalog/schema.rs` (names), `catalog/database.rs: create_index` | SELECTs over several tables or with subqueries in the planner (joins are in the optimizer and executor models), type checks, window functions, costs |
| `Dml` | `sql/execution/executors/{insert,update,delete}_executor.rs`, `sql/planner/{plan_builder,schema_manager}.rs` (INSERT, UPDATE, DELETE), `storage/table/{table_heap,transactional_table_heap,table_iterator}.rs` | one statement of one transaction; what fits in a page is left open (`Disk`); versions and undo log are in `Mvcc`; conversions outside `castTo` are a parameter; ON CONFLICT, RETURNING, CURRENT_TIMESTAMP |
| `Net` | `server/protocol.rs` (requests, responses), `server/connection.rs` (read loop), `client/client_impl.rs` (send and receive) | what the postcard crate does is modelled from its specification; connection limits, timeouts and the runtime; texts as bytes |
| `Session` | `common/db_instance.rs` (requests of clients), `sql/execution/execution_engine.rs` (transaction statements), `concurrency/transaction_manager_factory.rs`, `server/connection.rs` (begin and end of a session) | what statements do is in `Dml` and `Mvcc`; here their outcome is any function of the history; a statement and its commit are one step; locks, WAL, shutdown, DDL |
| `Disk` | `storage/disk/async_disk/manager.rs`, `memory/*`, `cache/cache_manager.rs`, `scheduler.rs`, page I/O of `io/executor.rs` | the I/O queue and its workers, the eviction order of the three caches (any eviction is allowed), prefetching, metrics, compression, direct I/O alignment, torn page writes, the log file |
| `PTree` | `storage/index/b_plus_tree_index.rs`, `page_types/b_plus_tree_{leaf,internal,header}_page.rs`, safety tests of `latch_crabbing.rs` | keys other than integers, a full buffer pool, page serialization, optimistic/pessimistic retries of latched traversals, validation and printing helpers, interleavings finer than "find the leaf" and "change it" |
| `Catalog` | `catalog/{catalog_impl,database,system_catalog}.rs`, CREATE TABLE/CREATE INDEX/CREATE DATABASE/USE in `plan_builder.rs`, `schema_manager.rs`, `create_table_executor.rs`, `create_index_executor.rs`, `command_executor.rs`, startup in `db_instance.rs` | rows and index contents, encoding of schemas (`postcard`), contention for the catalog lock, the rows of `__indexes`, escaping of quotes inside names, constraints other than foreign keys |
| `Io` | `storage/disk/async_disk/io/{operations,queue,completion,operation_status,worker,executor,io_impl}.rs` | direct I/O (aligned copies), metrics, event subscribers and `wait_for_operation`, the interval of the clean-up task; a sync is trusted to make everything written before it durable |
| `Plan/From` | `sql/planner/plan_builder.rs` (FROM clause), `sql/planner/logical_plan.rs` (`extract_join_keys`, schemas of joins) | derived tables and aliased parentheses, semi and anti joins, the type checks of the parser |
| `Plan/Subquery` | `sql/execution/expression_parser.rs` (subqueries), `expressions/{subquery,exists,in}_expression.rs` | scalar function calls in subqueries, other FROM items |
| `Time` | `expressions/{ceil_floor,extract,typed_string}_expression.rs` | `chrono` (a parameter), ISO weeks, fractional seconds and time zones in texts |
| `Sql/CastExpr.lean` | cast_expression.rs, function_expression.rs:105-222, expression_parser.rs:879-914 | CAST and calls nested inside other operators (`Expr` has no case for them), case conversion outside ASCII, the planner's own inference of result types |
| `Disk` (compression) | `storage/disk/async_disk/compression.rs` | the crates `lz4_flex` and `zstd` (parameters), errors of the Zstd encoder |
| `Sql` (subscripts, SIMILAR TO, CONVERT) | `subscript_expression.rs`, `map_access_expression.rs`, `struct_expression.rs`, `regex_expression.rs`, `convert_expression.rs`, `collate_expression.rs`, the arms of `expression_parser.rs` that build them | the crate `regex` (a parameter), JSON text in a map access, `clone_with_children` and `validate` (not called by the engine) |
| `Direct` | `src/storage/disk/direct_io.rs` on Linux: alignment checks, `AlignedBuffer` sizes, `read_aligned`, `read_aligned_into`, `write_aligned` | `open_direct_io`, `sync_file`, the allocator (a parameter), other platforms |
| `Coalesce` | `src/storage/disk/async_disk/memory/coalescing/engine.rs` | floating-point scores and memory pressure (parameters), statistics, `update_config`, the size analysis |
| `Dml/History*` | statements outside a transaction: execute_sql, commit and abort over the write set (db_instance.rs:588-647, transaction_manager.rs:481-807), what transactions note (transactional_table_heap.rs) | old versions (`Mvcc`), flush (`Session`), concurrent clients |
| `Sql/Parse*` | `expression_parser.rs:298-877, 1277-1492` on columns, literals, arithmetic, `\|\|`, comparisons, logic, IS, BETWEEN, IN, CASE; the type inference of `{literal_value,arithmetic,binary_op,unary_op,case}_expression.rs` | decimals, functions, simple CASE, LIKE, the other arms of the parser; names of columns (see `Plan`) |
| `Dml` (transactions) | `db_instance.rs` requests of a session, `transaction_manager.rs` begin/commit/abort with several statements | several clients, prepared statements, the flush at the end of a commit (in `Session`) |
| `Exec/PerGroup` | `topn_per_group_executor.rs`, `window_executor.rs` | the RIDs of rows; which of the least entries a heap has on top, and the order of a hash map, are left open |
| `Dml/Declared` | `schema_manager.rs` 415-451, 596-799, 874-1006, `column.rs` 382-404, 496-548 | the parts of nested types, time zones and precisions of times |
| `Latch`, `Pool/Threads` | the locks of `buffer_pool_manager_async.rs`, `page_guard.rs`; parking_lot's fair writer rule | the locks inside the disk manager and the cache; tokio tasks; upgradable reads |
| `Pool/Books*`, `Latch/Safe` | the steps of `buffer_pool_manager_async.rs` and `page_guard.rs` between the locks (as `Pool/Threads`) | as `Pool/Threads`; what a client does is fixed in advance (all scripts and schedules are covered) |
| `Sql/Display.lean`, `Sql/ValueBytes.lean` | `types_db/value.rs` (Display, bytes), `types_db/*_type.rs` (`to_string`) | text of floats and structures, the drawing of tables, `format_with_column_context` |
| `Verif/Whole` | db_instance.rs (handle_network_query, begin, commit, rollback), execution_engine.rs (execute_sql) over `Verif/Dml` and `Verif/Plan` | DDL in the history, several clients, indexes, prepared statements, result encoding |
| `Verif/Whole` (`Clients*.lean`) | db_instance.rs (client_sessions, remove_client_session), connection.rs (handle_connection) | statements of two clients that run at the same time |
| `Verif/HeapConc` | table_heap.rs (latch, inserts, page links), table_iterator.rs, transactional_table_heap.rs (update_tuple, delete_tuple: order of accesses), transaction_manager.rs (page writes of commit and abort) | the undo log, the buffer pool below the page locks, memory ordering (accesses are sequentially consistent) |
| Time/Functions | datetime_expression.rs: evaluate and its helpers | evaluate_join, validation, display; fractions of a second, other time zones, years outside 0 to 9999 |
| Whole/Named | catalog and statements by name; what Catalog, Dml and Plan model | USE, indexes, several clients |
| Whole/Typed | plan_builder.rs 3079-3316, 2549-2644, 466-802, 909-1136, 1534-1597 for statements with syntax trees | joins on other conditions than equalities of columns, HAVING, DISTINCT ordered by an item that is not a column, DEFAULT |
| Exec/IndexJoin | nested_index_join_executor.rs 214-248, 302-484, 557-625 | logging, output schema |
| Constraint | constraints.rs 223-503 | the texts of the violations beyond the column; as_decimal and Display of values (abstract here) |
| Whole/Wired | connection.rs 360-495, db_instance.rs 853-967, result_writer.rs 241-282 and 374-395, execution_engine.rs 313-366 and 644-690, client_impl.rs 405-489 | the text of errors; sqlparser (a parameter); prepared statements; TLS and timeouts |
| HashPage | hash_table_block_page.rs, hash_table_bucket_page.rs, hash_table_page_defs.rs, hash_table_directory_page.rs | printing; weak memory orderings (atomic steps are sequentially consistent); the header page; page ids and LSNs |
| Coalesce/Size | size_analyzer.rs 228-581 | rounding of f64 quotients (exact below 2^52 bytes); what compression would save, which is never reached |
| Metrics | collector.rs 116-640, live_metrics.rs, manager.rs 416-550 (what is recorded), 1087-1105 | weak memory (one order of all atomic actions); f64 ratios of a snapshot and the rounding of a percentile's target; history of snapshots, alerts, dashboard |

## Where the code and a property disagree

Each of these is proved in Lean as a theorem ending in `_fails`, on a concrete reachable state.

* **C05** `HeapLFUCache` with capacity 0 stores an entry (`C05_heap_lfu_capacity_zero_fails`).
* **C11** IS to S and IX to X upgrades are granted although another transaction holds a conflicting lock (`C11_is_to_s_fails`, `C11_ix_to_x_fails`).
* **C49** releasing a lock while another request waits in the same queue blocks forever: the loop over waiters locks each request's mutex and then scans the queue, which locks it again (`C49_release_with_waiter_fails`). A refused upgrade leaves the upgrade marker set for good (`C49_failed_upgrade_blocks_table_fails`).
* **C50** a refused request stays in its queue after the transaction is force-released (`C50_waiting_request_stays_fails`).
* **C51** row locks are recorded under the page number and looked up under the table oid (`C51_table_unlocked_first_fails`, `C51_row_unlock_fails`).
* **C52** the serializable level never refuses a lock after a release (`C52_serializable_relocks_fails`).
* **C16** aborting a transaction that wrote a row twice loses the row; aborting insert and update leaves the inserted row in place (`C16_abort_twice_fails`, `C16_abort_insert_update_fails`).
* **C18** a transaction that begins between the drawing of a commit timestamp and the stamping of the rows sees half of the commit (`C18_commit_steps_fails`).
* **C53** a reader loses a row version when an aborted transaction that had overwritten a version newer than its snapshot is pruned (`C53_lost_version_fails`).
* **C54** there is no write-write conflict check against the snapshot, at any level (`C54_lost_update_fails`).
* **C55** a read at read committed goes back to the version as of the transaction's begin when somebody else has an uncommitted version (`C55_read_committed_stale_fails`).
* **C56** UPDATE passes transaction 0 as the writer: own uncommitted rows cannot be updated, uncommitted rows of transaction 0 can be overwritten by anybody (`C56_sql_update_own_fails`, `C56_sql_dirty_write_fails`).
* **C57** garbage collection drops the undo link of the oldest running transaction (`C57_gc_fails`).
* **C58** a refused upgrade drops the lock it was to replace (`C58_refused_upgrade_fails`).
* **C20** a split through a slot other than the lowest one puts entries in the wrong bucket, so they are no longer found (`C20_lookup_after_split_fails`).
* **C21** removing the last key of a bucket deletes the page of the sibling bucket with its entries (`C21_remove_merge_fails`).
* **C59** bucket pages are never serialised; a reloaded bucket is empty and has capacity 0 (`C59_reload_fails`).
* **C24** `merge_with_left_sibling`/`merge_with_right_sibling` remove the separator when it moves down into the merged internal node and then remove the key that took its place. Children lose their separator, later deletes and inserts go to the wrong child, and when the root runs out of keys its other children are dropped (`C24_delete_fails`, `C24_insert_after_delete_fails`).
* **C25** The iterator asks for the next batch starting at the last key it returned, inclusively. Unless that key is the end key it gets it again, for ever (`C25_iterate_never_ends`). A range with one bound is an error and yields nothing (`C25_one_bound_fails`).
* **C22** The check for an existing pair looks at one leaf only (`C22_same_pair_twice`); with repeated keys and odd orders a split puts the new node at the wrong place (`C22_odd_order_repeated_keys_fails`); NULL keys compare as nothing and are returned by range scans (`C22_null_key_fails`).
* **C27** New pages start clean and clean pages are not written out, so a page nobody wrote to is lost by eviction and cannot be fetched (`C27_fresh_page_lost_fails`). `next_page_id` starts at 0 on every start, whatever the disk holds (`C27_restart_fails`).
* **C28** `load_page_from_disk` takes a frame off the free list or evicts a page, and does not give it back when the read fails or the page has another type (`C28_failed_load_loses_frame_fails`, `C28_pool_exhausted_fails`).
* **C60** `evict_old_page` drops a dirty page even if writing it failed (`C60_eviction_loses_write_fails`).
* **C62** `fetch_page` does not look again after getting a frame: two overlapping fetches make two copies of a page (`C62_overlapping_fetches_fails`).
* **C29** On a write error `perform_flush` sets the stop flag, and the commit waiting for that write then returns normally (`C29_commit_returns_after_write_error_fails`); the final flush still writes later records and moves `persistent_lsn` over the hole (`C29_hole_after_write_error_fails`). `next_lsn` starts at 0 on every start (`C29_lsns_repeat_after_restart_fails`). `start_recovery` sets `persistent_lsn` to the next LSN, which nobody has written (`C29_commit_acknowledged_early_after_recovery_fails`).
* **C31** `write_update_record` has no callers and no insert or delete record is ever made, so recovery of a real log changes nothing (`C31_engine_logs_restore_nothing_fails`). Even with records it would get no pages (`C31_no_pages_restore_nothing_fails`). Aborted transactions are redone and not undone, repeated LSNs stop the undo, inserts are repeated, and recovered rows are marked as uncommitted.
* **C64** After a crash that tore the last record, the log is appended to behind the torn bytes; the reader takes them for the header of a record that swallows the next ones, or gives up after 100 attempts (`C64_append_after_torn_tail_fails`). Records over 1,000,000 bytes are written and skipped when reading (`C64_long_record_fails`).
* **C32** `get_next_tuple_offset` places a new row below the *last* slot, while `update_tuple` moves a growing row below *all* slots: inserting after an older row grew overwrites it (`C32_grown_row_fails`). `insert_tuple_with_rid` reports whatever place it is given (`C32_given_place_fails`). An update with a row of 64 KiB or more can panic (`C32_long_update_panics_fails`).
* **C65** `update_tuple`, `update_tuple_meta` and the link setters do not refresh the page's bytes (`C65_stale_bytes_fails`); `create_page_from_data` only copies bytes into a new page, so a reloaded table page has no rows (`C65_reload_fails`, for all bytes).
* **C38** NaN is incomparable in the sort order (`C38_order_total_fails`). `Float <= Decimal` compares in single precision and the other operators in double, so 0.1 (f32) is both `>` and `<=` 0.1 (`C38_float_decimal_fails`). BigInt against Decimal rounds, so SQL `=` is not transitive (`C38_bigint_decimal_fails`). SQL-equal numbers of different types are different group and hash keys (`C38_key_fails`). SQL `=` calls any two structs equal (`C38_struct_fails`).
* **C66** `arithmetic_expression.rs:804,853` match `(Integer, Decimal) | (Decimal, Integer)` in one arm and so compute `integer op decimal` for both orders in joins: `2.5 - 1` is -1.5 (`C66_join_fails`). `x + NULL` is an error (`C66_null_fails`). `%` gives NULL for every type but Integer (`C66_modulo_fails`).
* **C68** float to integer casts saturate silently (`300.0` as TINYINT is 127) and NaN becomes 0 (`C68_saturates_fails`).
* **C34** `all_expression.rs` stops at the first NULL comparison, so `1 = ALL (NULL, 2)` is NULL and `1 = ALL (2, NULL)` FALSE (`C34_all_fails`). The parser turns IN-list items that are not literals into NULL (`expression_parser.rs:1467-1473`), so `x IN (x)` is never TRUE (`C34_in_items_fails`).
* **C35** `%` slices at byte offsets and panics on text that is not ASCII (`C35_non_ascii_fails`); LIKE is built case-insensitive (`C35_case_fails`); NULL is matched as text (`C35_null_fails`).
* **C36** `SUBSTRING(.. FROM 0 FOR 2)` keeps two characters, not one (`C36_position_fails`); slices panic inside a multi-byte character (`C36_panic_fails`); OVERLAY refuses positions that are not of type Integer, hence every small literal (`C36_overlay_literal_fails`).
* **C37** CASE with a NULL condition is an error (`C37_case_null_fails`); simple CASE uses `==`, so `CASE int_col WHEN 1` never matches and NULL matches NULL (`C37_case_of_fails`); the parser exchanges IS DISTINCT FROM and IS NOT DISTINCT FROM (`expression_parser.rs:1255-1275`, `C37_distinct_fails`).
* **C69** with a Decimal on the left the Decimal is truncated to the integer's type: `3.7 = 3` is TRUE, `200.5 > 127` FALSE (`C69_decimal_int_fails`).
* **C70** `%` and `||` in a join condition are evaluated again on a temporary two-column row (`C70_modulo_fails`).
* **C71** the parser drops `'x'` in `TRIM(BOTH 'x' FROM s)` (`C71_trim_what_fails`).
* **C40** a WHERE predicate that fails to evaluate on a row drops the row (`filter_executor.rs:186-216`, `C40_where_hides_errors`).
* **C41** `sort_executor.rs` stops collecting when its input fails and returns what it has as a complete result (`C41_input_error_fails`).
* **C42** `serialize_tuple` writes values without tags, so different rows can have one encoding (`C42_null_fails`), and 0.0 and -0.0 are equal with two encodings (`C42_zero_fails`).
* **C43** RIGHT and FULL joins record right rows by value while scanning them for a left row: duplicates are lost (`C43_right_duplicate_fails`), and with an empty left side all of them (`C43_right_empty_fails`).
* **C46** TopN keeps the rows with the greatest keys: LIMIT 1 of 1, 2, 3 gives 3 (`C46_first_fails`); a key that does not evaluate panics (`C46_panic_fails`).
* **C44** `hash_join_executor.rs` asks its table for one record id per key, so of two right rows with one key only one is joined (`C44_duplicate_fails`); NULL keys join each other (`C44_null_fails`); an Integer 1 and a BigInt 1 do not (`C44_types_fails`).
* **C45** COUNT(x) counts NULLs (`C45_count_fails`), SUM of an empty group is 0 (`C45_empty_sum_fails`), SUM over TinyInt panics at 128 (`C45_sum_fails`), AVG over SmallInt is NULL (`C45_avg_fails`). The parser drops DISTINCT inside an aggregate (`parse_aggregate_function`).
* **C47** `analyze_bounds` joins the parts of an OR end by end: `x < 5 OR x > 10` is scanned from 10 to 5 (`C47_sides_fails`); the column compared is not looked at (`C47_other_column_fails`); a predicate that fails to evaluate counts as true (`C47_error_fails`).
* **C72** of two projections the outer one is dropped (`C72_double_projection_fails`); nested renames panic (`C72_nested_rename_fails`); merged filters evaluate the outer predicate on rejected rows (`C72_merged_filters_fails`); a join whose condition is a literal is refused, so `FROM a, b` and `ON TRUE` never run (`C72_cross_join_fails`).
* **C73** the projection over an aggregation finds an aggregate by its place in the SELECT list: `SELECT SUM(a), SUM(b)` gives SUM(a) twice (`C73_two_sums_fails`), `SELECT SUM(a), b … GROUP BY b` gives b twice (`C73_aggregate_first_fails`), an alias on a group column takes the table's column number (`C73_alias_fails`), and with HAVING all columns do (`C73_having_fails`).
* **C74** no executor maintains an index, and the first SELECT on a table with a primary key on its first column creates one that all later SELECTs use: `CREATE TABLE t (id INTEGER PRIMARY KEY); SELECT * FROM t; INSERT INTO t VALUES (1); SELECT * FROM t` gives nothing (`C74_insert_fails`).
* **C75, C76** DELETE and UPDATE scan the newest version of each row whoever wrote it: a matching row another transaction has not committed makes them fail after part of the work (`C75_dirty_fails`, `C76_dirty_fails`).
* **C77** CREATE INDEX takes the record id the table iterator reports, which is wrong for a row after a deleted one (`C77_reported_rid_fails`): the index then leads to the deleted row.
* **C78** a column that is not listed gets NULL even if it has a DEFAULT (`C78_default_fails`); `INSERT INTO t (a, b) SELECT b, a …` swaps (`C78_select_swapped_fails`); `INSERT INTO t (b) SELECT x …` fills the first column (`C78_select_first_column_fails`); LIMIT, OFFSET and ORDER BY of the source are ignored (`C78_select_limit_fails`).
* **C79** NOT NULL, PRIMARY KEY, UNIQUE, CHECK and lengths are not enforced: the checks in `insert_tuple_from_values_with_catalog` are commented out. The counter that fills primary keys is one per process, starts at 1 and collides with given keys (`C79_counter_fails`).
* **C80** UPDATE stores a value of any type (`C80_update_fails`).
* **C81** a failing statement inside a transaction leaves what it did before the error (`C81_insert_fails`).
* **C82** the server takes each read of up to 1024 bytes as one request: longer SQL is always refused (`C82_long_fails`), and the bytes of a query after the first 1024 are handled as requests of their own, so text inside a literal can commit a transaction (`C82_injection_fails`).
* **C83** the client can never receive a result of more than 8192 bytes (`C83_long_fails`).
* **C84** BEGIN as an SQL statement has no effect: the statements after it are committed one by one and the ROLLBACK reports an error (`C84_sql_begin_fails`). COMMIT and ROLLBACK as statements inside a transaction begun by a request leave the session with a finished transaction in which nothing can be changed (`C84_sql_commit_fails`, `C84_sql_rollback_fails`). ROLLBACK TO SAVEPOINT rolls back everything. A failing flush is reported as failure of a statement that is committed (`C84_flush_fails`).
* **C85** BEGIN and AND CHAIN as statements leave a transaction that runs for ever (`C85_leak_fails`); it also holds back the watermark.
* **C86** `Prepare` runs and commits the statement (`C86_prepare_fails`); no statement is ever stored, so `Execute` always fails (`C86_execute_fails`).
* **C88** the disk manager returns stale pages: a read promotes a page to a warmer cache level, a later write updates a colder level only; deduplication (always on, whatever `deduplication_enabled` says) skips storing bytes another page has and keeps the old copy; reads never look into the write buffer.
* **C89** a page that does not fit the write buffer is dropped although the write reports success; pages drained by a flush that meets an I/O error are lost and the next flush reports success.
* **C90** with the default configuration (`work_stealing_enabled`) every read that misses the cache waits forever: no worker takes tasks from the scheduler. This includes the first read of any page after the database is reopened.
* **C93** the flush lock is given up before the drained pages are written, so of two overlapping flushes the older content can reach the file last.
* **C96** the split of an internal page gives the right half its first child twice; a removal that underflows there takes the page as its own sibling and waits for itself forever (order 4, keys 1 to 11, remove 7). `redistribute_leaf_pages` under a parent with one key leaves three children for one key, and later inserts cannot be found.
* **C97** pages of the paged index cannot be read back after an eviction (`unimplemented!`), and the header page comes back as that of an empty index of order 0.
* **C98** inserts drop all latches between finding the leaf and changing it, so a concurrent split sends the key to the wrong leaf; two inserts into an empty index both create the root.
* **C99** CREATE TABLE, UPDATE and DELETE use the printed name, with its quotes; SELECT and INSERT use the bare name. `CREATE TABLE "t"` makes a table no SELECT finds; if `t` exists too, `INSERT INTO "t"` writes to `t` and `DELETE FROM "t"` deletes from `"t"`. CREATE DATABASE and USE cut their names at the first space.
* **C100** FOREIGN KEY clauses of more than one column are dropped with a log message; a table cannot refer to itself.
* **C101** every start makes a new, empty system catalog on pages 0 to 3 and restarts the page counter at 0. The only other source is the file `catalog.snapshot`, which is written only if the (new) system table has rows at that moment, that is never. All tables are lost on restart and their pages handed out again.
* **C102** ALTER TABLE, CREATE VIEW, ALTER VIEW, CREATE SCHEMA, SAVEPOINT are echoed and reported as done. CREATE INDEX under a taken name, CREATE DATABASE of an existing one and USE of a missing one report success.
* **C103** USE changes the database for all clients of the server.
* **C104** an operation whose timeout or cancellation hits between the worker's check and its execution is still executed after the caller has its error: a later, successful write of the same place is then overwritten by the old one. Page numbers are multiplied by 4096 without check: page 2^52 is page 0.
* **C106** with several workers a lower priority may be executed first, and as long as reads arrive writes wait without bound (until their timeout fails them).
* **C107** `drain_queue` and aborting workers leave calls without answer until the timeout check, up to 90 seconds later.
* **C109** the condition of a join is rebuilt from the order of its operands: `ON b.y = a.x` fails, `ON a.x = a.y` compares with a column of `b`, a column called `d.id` is replaced by the first column of the right side, and for tables without alias a shared column name is that of the first table. FROM lists with commas, CROSS JOIN, NATURAL, USING and conditions other than equalities of columns are refused.
* **C110** a subquery's FROM and WHERE are never executed: its SELECT item is evaluated on the row of the outer query. `EXISTS (SELECT 1 FROM empty)` is TRUE, `id IN (SELECT id FROM empty)` is TRUE on every row, comparisons with scalar subqueries drop all rows.
* **C111** CEIL moves a timestamp that is already a boundary to the next one, FLOOR and CEIL to MONTH or YEAR are wrong from 2038-01-19 on (the days are an i32 of seconds), `TO WEEK` panics.
* **C112** EXTRACT of a TIMESTAMP value always fails, Sunday is 7, and the epoch wraps in 2038.
* **C113** dates before 1970 become unsigned numbers above 2^63 and compare as later than every other date.
* **C114** `CAST` of a whole number up to 32767 to INTEGER, BIGINT or DECIMAL is always an error, because the literal is a TinyInt or SmallInt and no pair with those types is listed; a number can never be cast to text nor a text to a number. `VARCHAR(n)` ignores n. 3000000000.0 becomes 2147483647. `CAST(3.7 AS INTEGER)` is 4 in WHERE and 3 in a join condition (`C114_*_fails`).
* **C115** Every scalar function except UPPER and LOWER parses, plans and then fails at the first row (`C115_other_fails`).
* **C116** data stored with no compression is changed by the decoder when it contains the byte 255, or a panic when it begins with a compressor's mark (`C116_none_fails`).
* **C117** SERIALIZABLE accepts write skew: nothing checks what a transaction has read (`C117_write_skew_fails`).
* **C118** `a[0:10]` of a shorter array is empty; `a[4294967296]` is `a[0]`; `a[NULL]` is an error; `a[i][j]` is always refused by the parser; a bound that does not parse is silently taken as 0 or -1; `STRUCT(..).name` always fails (`C118_fails`).
* **C119** `NULL SIMILAR TO 'N%'` is true; `%` does not match a line feed; `a|b`, `a+`, `[a-c]` and `[^a]` are taken literally; `ESCAPE ''` panics (`C119_fails`).
* **C120** `CONVERT(3.7, INT)` is 3 while `CAST(3.7 AS INT)` is 4; `TRY_CONVERT(3e9, INT)` is 2147483647 rather than NULL; COLLATE has no effect (`C120_fails`, `C120_collate_fails`).
* **C121** With direct I/O the bytes after the last multiple of the alignment cannot be read (`C121_tail_fails`); after a short transfer the loop issues a misaligned call, which the kernel refuses (`C121_short_fails`); an alignment that is not a power of two panics instead of being refused when direct I/O is off (`C121_panics_fails`).
* **C122** `cleanup_expired_writes` removes up to an eighth of the limit of pages that have not expired on every run that finds few expired ones (`C122_live_dropped_fails`).
* **C98** `remove` reads the root, the height and the count from the header before it looks for its leaf and writes them back afterwards: an insert that makes a new root in between loses it, and two removals at the same time are counted as one.
* **C123** When a failed UPDATE has made a row shorter and its page is full, the rollback cannot write the longer row back; this is only logged, the client is told of an error, and the row keeps the new value.
* **C123** The tables read back from the catalog at a restart are not registered with the transaction manager: commits do not mark their new rows as committed, so that no later statement can change them, and aborts roll nothing back.
* **C124** `NULL = 5` is refused as a type mismatch while `5 = NULL` is accepted: the literal on the right is cast to the type of the left side, and the type of NULL accepts no value.
* **C124** `b AND NULL`, `1 + NULL` and `CASE WHEN b THEN 1 ELSE NULL END` are refused, and so is `CASE WHEN b THEN 1 ELSE 1000 END`, because 1 is a TinyInt and 1000 a SmallInt. `100 + 100` is an overflow error: both literals are TinyInts.
* **C124** On a CHAR column `c IN ('a')` is FALSE where `c = 'a'` is TRUE: the comparison casts, the membership test does not.
* **C125** A transaction that inserts a row, deletes it and is rolled back leaves the row in the table: the undo log of the DELETE holds the inserted row, and the rollback writes it back (`C125_insert_delete_fails`). After UPDATE, DELETE and ROLLBACK the row has the value of the UPDATE (`C125_update_delete_fails`): the rollback applies only the newest undo log of a row.
* **C125** A statement that fails in a client's transaction leaves what it did to the rows before the failing one; a commit keeps that (`C125_half_fails`).
* **C125** In a transaction a row can be updated only once, and an inserted row not at all: UPDATE passes the metadata of transaction 0, so that the own row counts as an uncommitted row of another transaction (`C125_update_twice_fails`).
* **C126/C127** The executors for the top rows of each group and for window functions end with an empty result and without an error when their input fails (`C126_input_error_fails`, `C127_input_error_fails`), as aggregation does.
* **C127** All window functions of a plan are numbered by the partition and order of the first (`C127_second_fails`).
* **C128** Lengths and precisions in CREATE TABLE do nothing: VARCHAR(3) and CHAR(2) take texts of any length, DECIMAL(3,1) takes 12345 (`C128_varchar_fails`, `C128_char_fails`, `C128_decimal_fails`).
* **C128** Unsigned integer types are the signed ones of the same width: TINYINT UNSIGNED takes -1 and refuses 200 (`C128_unsigned_fails`).
* **C129** The buffer pool deadlocks when it must evict: a fetch locks the page table and then the replacer, an eviction the replacer and then the page table; a dropped guard holds its page and waits for the replacer while the rescan before an eviction holds the replacer and waits for the page (`C129_eviction_fails`, `C129_drop_fails`).
* **C129** Even with free frames three threads deadlock when one keeps a page locked and fetches another, as `insert` of the paged index does (`C129_locked_page_fails`); `flush_dirty_pages_batch_async` locks the list of pages and the page table in the other order than a fetch (`C129_batch_fails`).
* **C130** `fetch_page` calls `set_evictable(false)` before it pins the page: if the last guard is dropped in between, the page ends pinned and evictable, and the next call that needs a frame evicts a page in use (`C130_in_use_fails`).
* **C130** `flush_page` copies the bytes and clears the dirty flag under different locks, so a write in between is lost on eviction (`C130_flush_fails`); it also looks up the frame and the page under different locks, so it can write the bytes of another page in place of the page it was asked to flush (`C130_flush_other_fails`). Two fetches of a page not in memory give two copies (`C130_two_frames_fails`), and a page can be deleted while it is fetched (`C130_deleted_fails`).
* **C109** `GROUP BY e.id, d.id`: two GROUP BY columns with the same name in different tables become one column; the first stands where the second should and the second in place of the aggregate (`C109_group_by_fails`).
* **C30** A log record states its size when it is made; the number it gets later is shorter than the placeholder, so the stated size is up to nine bytes more than the record has (`C30_size_fails`). The frame's own length is right.
* **C132**: a CHAR value is printed with 255 bytes whatever its declared length, and cut after 255 characters; a date before 1970 is printed as `INVALID_DATE(-1)`, because the days are converted to an unsigned number before they are added to 1970.
* **C133**: `deserialize_from` of the byte that stands for NULL gives false, 0 or a text, and arrays come back empty (the functions are public, the engine stores rows in another format).
* **C134**: asking for a weaker lock than the one held replaces it: a holder of X that asks for IS holds IS afterwards, and others get S.
* **C136**: an integer is rounded to the type of the other operand before the operation: `9007199254740993 + 1.0` is 9007199254740992, and `16777217 + 1.0` with a FLOAT is 16777216, although both exact sums can be represented.
* **C137** A SELECT shows rows that the open transaction of another client has inserted, also when that transaction is rolled back later (`C137_dirty_read_fails`); the sessions ask for read committed.
* **C138** `TransactionalTableHeap::delete_tuple` and `update_tuple` read and check a row under its page lock and write it later under the latch without checking again; two transactions in two threads can both change a committed row, the second over the uncommitted change of the first (`C138_checked_write_fails`). The server does not meet this: it runs one statement at a time.
* **C140** `date_trunc('year', t)` is the beginning of the day; `date_trunc('quarter', t)` panics on every 31st of May; `'decade'` and `'century'` panic on leap days such as 2016-02-29 and 1904-02-29; `make_time` always fails because it asks for day 0 of month 0.
* **C141** An interval `P1M` is 30 days and `P1Y` 365; text minus text is refused because the second operand is always read as an interval; a number of 2^63 or more in an interval counts as 0.
* **C144** The index nested-loop join picks the first index with as many columns as there are join keys, whatever the columns are, and then looks up the join key in it: matching rows are lost. It ignores the join type (LEFT JOIN loses unmatched rows), ignores the predicates of a right index scan, treats a right side that is a filter as empty, and treats errors of the right side as its end.
* **C145** `ConstraintValidator` remembers only the last primary key (1, 2, 1 is accepted), accepts NULL as a primary key, does not check composite keys, evaluates CHECK by searching the text for `price > 0`, `budget > 0` or `salary > 0` (so `NOT (price > 0)` refuses -1 and `age > 0` accepts it), and reserves the UNIQUE values of tuples it refuses.
* **C146** A request that does not reach the server in one read is answered once per read. The client takes the first answer, so from then on each request is answered with the response to an earlier one; a COMMIT that succeeds can be reported as an error (`C146_behind_fails`).
* **C146** `validate_sql_syntax` refuses `DELETE  FROM t` (two spaces), which the parser accepts. INSERT, UPDATE and DELETE send no number of rows: zero changed rows and all rows look the same to a client.
* **C147** `insert_at` looks at the occupied bit and sets it in separate steps. Two threads can both find it clear, both return `true`, and one pair is lost (`C147_race_fails`). `get_value` reads key and value under separate locks and can return the value of another key (`C147_torn_fails`).
* **C147** A removed pair leaves its occupied bit set and nothing ever clears it: after as many insertions as the page has slots it takes nothing more, although it says that it is empty and not full (`C147_reuse_fails`). The documentation says that keys are not unique, `insert` refuses a second value for a key (`C147_keys_fails`).
* **C147** `key_at` with an index that does not exist panics while it holds the lock; every later read of a pair panics too. `new` panics for pairs of 4096 bytes or more; for some sizes, such as 1365, the layout needs 4097 bytes.
* **C148** `can_shrink` compares `2^g <= 2^(g-1)` and is always false. `get_split_image_index` and `get_local_high_bit` underflow for local depth 0. `incr_global_depth` does not stop at 9, so `size` can exceed the 512 entries. `verify_integrity` has no body.
* **C124** A WHERE clause that cannot be computed on a row silently leaves it out: `WHERE b OR a + 1 > 0` misses the rows with `b` TRUE and `a` NULL, and an overflow in WHERE is no error of the statement (`C124_where_fails`).
* **C149** A page listed twice becomes two ranges, which `validate_page_ranges` refuses (`C149_twice_fails`). Pages 2^52 apart overflow the gap: a panic with overflow checks, a gap of no bytes and the verdict efficient without (`C149_far_fails`). The new data are part of the data size but of no range: the total can be less than the data, and the write is then efficient (`C149_total_fails`). Compression savings are always 0, because the estimate is at most 0.7 and the threshold 0.75.
* **C32** `update_tuple` and the inserts do not maintain the header's count of deleted rows: a row rewritten as deleted is not counted, and restoring it through its metadata uncounts another one (`C32_deleted_count_fails`).
* **C150** `read_page` passes `false` for `success` when a page came from the disk (manager.rs 502, 541): every uncached read counts as an error, and after 101 of them `health_check` says the disk is sick (`C150_errors_fails`); a read that fails records nothing (`C150_failed_fails`). Batches and flushes raise the number of samples without filling a bucket, so percentiles are 0 or the maximum (`C150_batch_fails`). The maximum is a load and a store: two threads can lose it (`C150_max_fails`). `reset_metrics` keeps `start_time`, so rates after a reset are too low (`C150_rate_fails`).

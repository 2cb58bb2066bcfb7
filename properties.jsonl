{"id": "C01", "title": "WAL record round trip", "statement": "Every record the write-ahead log writes is read back with the same id, the same logged operation bytes and the same predecessor checksum, whatever bytes precede it and follow it in the file.", "quantifier": "every record id, every predecessor checksum, every operation payload that fits the 16-bit length field, every file prefix and suffix", "why_tests_cant": "The length and checksum fields interact with arbitrary payload bytes and arbitrary neighbouring file contents; a test fixes a few of them.", "anchors": ["services/wal/dto.cpp: pack, append_size, append_crc32, read_crc32, read_size_impl, unpack_wal_id", "services/wal/wal.cpp: read_record, read_size, next_index"]}
{"id": "C02", "title": "WAL replay is exact", "statement": "Opening the log and asking for everything after id k returns exactly the operations that were logged with an id greater than k, each once, in the order they were logged.", "quantifier": "every history of logged operations (any number, any payload sizes within the limit) and every k", "why_tests_cant": "Replay walks an unbounded chain of variable-length records; only an induction over the history covers all of them.", "anchors": ["services/wal/wal.cpp: load, find_start_record, read_record, write_data_"]}
{"id": "C03", "title": "WAL payload length limit", "statement": "A logged operation of any size is replayed intact. (The code stores the payload length in 16 bits, so this fails for payloads of 65536 bytes or more: such a write corrupts its own record and hides later ones.)", "quantifier": "every payload length", "why_tests_cant": "The failure needs a payload of at least 64 KiB whose length has particular residues; all lengths cannot be enumerated.", "anchors": ["services/wal/dto.cpp: pack, append_size", "services/wal/base.hpp: size_tt"]}
{"id": "C04", "title": "WAL crash at any byte", "statement": "If the process dies while appending a record, then whatever prefix of that record reached the file, reopening the log yields every operation that was completely logged before, and never presents the torn record as a valid operation.", "quantifier": "every history, every byte position of the crash inside the last append", "why_tests_cant": "A crash can cut the file at any byte of any record of any history.", "anchors": ["services/wal/wal.cpp: read_buffer, read_record, find_start_record, init_id"]}
{"id": "C05", "title": "WAL ids continue after reopen", "statement": "Ids handed out by the log are consecutive and strictly increasing over the whole life of the log, including across any number of close/reopen cycles, so no acknowledged id is ever reused.", "quantifier": "every interleaving of appends and reopens", "why_tests_cant": "Id reuse depends on the scan of the whole existing file at every reopen.", "anchors": ["services/wal/wal.cpp: init_id, write_data_, constructor"]}
{"id": "C06", "title": "WAL corruption detection", "statement": "Any alteration of a stored record confined to a window of at most 32 consecutive bits (in particular any single flipped bit) of its operation bytes is detected at replay: the record is not delivered with altered contents.", "quantifier": "every payload of every length, every window position, every non-zero error pattern in the window", "why_tests_cant": "There are unboundedly many payloads and error patterns; the guarantee is an algebraic fact about the checksum.", "anchors": ["services/wal/wal.cpp: read_record, read_record crc check", "services/wal/dto.cpp: crc32 helpers"]}
{"id": "C07", "title": "Acknowledged write is already logged", "statement": "Whenever a client receives the answer to a successful insert, update, delete or create-collection request, the log already contains the record of that operation, under every interleaving of the actors' messages.", "quantifier": "every schedule of messages between client, dispatcher, memory storage, log and disk; every number of concurrent sessions", "why_tests_cant": "Message interleavings of several actors and sessions are unbounded.", "anchors": ["services/dispatcher/dispatcher.cpp: execute_plan, execute_plan_finish, wal_success"]}
{"id": "C08", "title": "Durability of acknowledged writes", "statement": "After a restart (at any point after the answers were received) a collection contains exactly the documents produced by the acknowledged inserts, updates and deletes. (The code loses updated documents and does not replay the log of an empty disk.)", "quantifier": "every history of insert/update/delete, every restart point", "why_tests_cant": "Restart points times histories are unbounded.", "anchors": ["services/collection/executor.cpp: update_document_impl, insert_document_impl, delete_document_impl", "services/disk/manager_disk.cpp: flush", "services/dispatcher/dispatcher.cpp: load_from_disk_result, load_from_wal_result"]}
{"id": "C09", "title": "DDL admission", "statement": "A create/drop of a database or collection is accepted exactly when the catalog state produced by the previous accepted requests makes it meaningful: creating something that exists, or dropping something that does not, is refused and changes nothing.", "quantifier": "every sequence of DDL requests over any names", "why_tests_cant": "Admission depends on the whole request history.", "anchors": ["services/dispatcher/dispatcher.cpp: execute_plan, check_namespace_exists, check_collectction_exists, update_catalog", "components/catalog/catalog.cpp"]}
{"id": "C10", "title": "Dropped data stays dropped", "statement": "A collection created after its previous incarnation was dropped (directly, or by dropping its database) starts empty. (Dropping a database leaves its collections in memory storage and on disk, so they reappear.)", "quantifier": "every sequence of create/drop/insert requests", "why_tests_cant": "Requires reasoning about all histories containing a drop followed by a re-create.", "anchors": ["services/memory_storage/memory_storage.cpp: drop_database_, create_collection_, drop_collection_"]}
{"id": "C11", "title": "Disk metadata round trip", "statement": "The list of databases and collections saved to disk is read back identically after a restart.", "quantifier": "every catalogue of databases and collections, every sequence of append/remove operations, every name free of the separators ':', ';' and newline", "why_tests_cant": "Names and catalogue sizes are unbounded.", "anchors": ["services/disk/metadata.cpp: append_database, append_collection, remove_database, remove_collection, flush_, constructor"]}
{"id": "C12", "title": "B+ tree behaves as a set of entries per key", "statement": "After any sequence of insertions and removals the on-disk B+ tree contains an entry exactly if it was inserted and not removed since, insertion reports whether it was new, and a full scan yields the entries in key order.", "quantifier": "every sequence of append/remove/remove_index operations of any length, any key distribution, any split/merge pattern", "why_tests_cant": "Splits, merges and rebalancing happen only for particular long histories.", "anchors": ["core/b_plus_tree/b_plus_tree.cpp: append, remove, remove_index", "core/b_plus_tree/segment_tree.cpp", "core/b_plus_tree/block.cpp"]}
{"id": "C13", "title": "Block page keeps its entries sorted and distinct", "statement": "A storage page accepts an entry iff it is not already there and fits, keeps its entries in key order, and lookup, count, min and max answer according to the entries it holds; splitting or merging pages loses, duplicates and reorders nothing.", "quantifier": "every sequence of page operations, every page size, every key multiset", "why_tests_cant": "Binary searches over duplicate keys at page boundaries cannot be covered by samples.", "anchors": ["core/b_plus_tree/block.cpp: append, remove, contains_index, find_index_range_, split, merge, split_append"]}
{"id": "C14", "title": "File space allocator never hands out live space", "statement": "The page-file gap allocator never returns a range that overlaps a live page, and releasing a page makes exactly its range reusable, with adjacent free ranges coalesced.", "quantifier": "every sequence of allocate/release operations with any sizes", "why_tests_cant": "Overlap bugs need particular fragmentation histories.", "anchors": ["core/b_plus_tree/segment_tree.hpp: gap_tracker_t"]}
{"id": "C15", "title": "Page restore round trip", "statement": "A page written to disk and restored holds the same entries with the same contents, and a page whose stored bytes were changed in a detectable way is not accepted as valid.", "quantifier": "every page contents", "why_tests_cant": "Page contents are arbitrary.", "anchors": ["core/b_plus_tree/block.cpp: restore_block, recalculate_checksum, varify_checksum"]}
{"id": "C16", "title": "On-disk index range queries", "statement": "For every stored set of (key,row) pairs, find(k), lower_bound(k) and upper_bound(k) on the disk index return exactly the rows whose key is equal to, less than, greater than k; the comparison operators of a query are translated to the right combination.", "quantifier": "every index contents, every probe key, every comparison operator", "why_tests_cant": "Boundary and duplicate key combinations are unbounded.", "anchors": ["services/disk/index_disk.cpp: find, lower_bound, upper_bound", "services/disk/index_agent_disk.cpp: find"]}
{"id": "C17", "title": "Insert is all-or-nothing on duplicate _id", "statement": "An insert batch containing an _id that is already stored changes nothing; otherwise every document of the batch is stored under its _id and no other document changes.", "quantifier": "every collection contents, every batch", "why_tests_cant": "Batches and collections are unbounded, including batches with internal duplicates.", "anchors": ["components/physical_plan/collection/operators/operator_insert.cpp", "components/physical_plan/collection/operators/scan/primary_key_scan.cpp", "services/collection/executor.cpp: insert_document_impl"]}
{"id": "C18", "title": "Delete removes exactly the matches", "statement": "A delete removes exactly the documents satisfying the filter (at most the limit of them), reports exactly the removed ids, and leaves all others unchanged.", "quantifier": "every collection, filter and limit", "why_tests_cant": "All filters and collections cannot be enumerated.", "anchors": ["components/physical_plan/collection/operators/operator_delete.cpp", "components/physical_plan/collection/operators/scan/full_scan.cpp"]}
{"id": "C19", "title": "Limit semantics", "statement": "A query with limit n returns exactly the first min(n, total) matches of the same query without limit; with no limit (-1) all of them; a negative limit other than -1 returns none.", "quantifier": "every input sequence, every filter, every integer limit", "why_tests_cant": "Off-by-one behaviour must hold for every size.", "anchors": ["components/logical_plan/node_limit.cpp: limit_t::check", "components/physical_plan/collection/operators/scan/full_scan.cpp", "components/physical_plan/collection/operators/operator_match.cpp"]}
{"id": "C20", "title": "Index scan equals full scan", "statement": "A filter answered through a secondary index returns the same documents as the same filter answered by scanning the collection. (False for >, >= and != when documents lack the indexed field.)", "quantifier": "every collection, every indexed field, every comparison and constant", "why_tests_cant": "Equality of two evaluation strategies over all data.", "anchors": ["components/physical_plan/collection/operators/scan/index_scan.cpp", "components/physical_plan/collection/operators/predicates/simple_predicate.cpp", "components/index/single_field_index.cpp"]}
{"id": "C21", "title": "Secondary index tracks the collection", "statement": "After any sequence of inserts, updates and deletes, looking a value up in a secondary index returns exactly the stored documents with that field value. (Deleting a document whose key is shared removes an arbitrary entry.)", "quantifier": "every history of index insert/delete operations", "why_tests_cant": "The error needs key collisions in particular orders.", "anchors": ["components/index/single_field_index.cpp: insert_impl, remove_impl, find_impl", "components/index/index_engine.cpp: insert_document, delete_document"]}
{"id": "C22", "title": "Boolean filters", "statement": "and/or/not filters select exactly the documents for which the Boolean combination of the sub-filters holds, both when evaluated per document and when evaluated by merging the result lists of the sub-filters, and the merged list has no duplicates.", "quantifier": "every filter tree, every collection", "why_tests_cant": "Filter trees have unbounded depth.", "anchors": ["components/physical_plan/collection/operators/predicates/simple_predicate.cpp", "components/physical_plan/collection/operators/merge/operator_and.cpp", "components/physical_plan/collection/operators/merge/operator_or.cpp", "components/physical_plan/collection/operators/merge/operator_not.cpp"]}
{"id": "C23", "title": "Join semantics", "statement": "inner/left/right/full/cross joins return exactly the pairs the join condition selects, plus the unmatched rows the join type requires, each exactly once.", "quantifier": "every pair of inputs (including empty ones), every join condition and type", "why_tests_cant": "Unmatched/duplicate combinations over all inputs.", "anchors": ["components/physical_plan/collection/operators/operator_join.cpp"]}
{"id": "C24", "title": "Group by partitions the input", "statement": "Group-by puts two input documents that have all key fields in the same group exactly if their key values are equal, every such document lands in exactly one group, groups appear in order of first occurrence, and aggregates are computed over exactly the members.", "quantifier": "every input list, every key list", "why_tests_cant": "All groupings of unbounded inputs.", "anchors": ["components/physical_plan/collection/operators/operator_group.cpp"]}
{"id": "C25", "title": "Sort returns an ordered permutation", "statement": "ORDER BY returns a permutation of its input ordered by the sort keys in sequence with their directions.", "quantifier": "every input, every list of sort keys and directions", "why_tests_cant": "All inputs.", "anchors": ["components/physical_plan/collection/operators/sort/sort.cpp", "components/physical_plan/collection/operators/operator_sort.cpp"]}
{"id": "C26", "title": "Aggregates", "statement": "COUNT, SUM, MIN, MAX and AVG over a field return the count, sum, least, greatest and mean of the values of that field over the documents of the input.", "quantifier": "every input list", "why_tests_cant": "All inputs, including empty ones and ones with missing fields.", "anchors": ["components/physical_plan/collection/operators/aggregate/operator_sum.cpp", "components/physical_plan/collection/operators/aggregate/operator_min.cpp", "components/physical_plan/collection/operators/aggregate/operator_count.cpp", "components/physical_plan/collection/operators/aggregate/operator_avg.cpp", "components/physical_plan/collection/operators/aggregate/operator_max.cpp"]}
{"id": "C27", "title": "Key order is a strict weak order", "statement": "The comparison used for index keys is irreflexive, transitive and has transitive incomparability, independently of the width and signedness the integers are stored with, so ordered containers keyed by it are well defined. (Fails when 64-bit integers are mixed with doubles.)", "quantifier": "every triple of key values of every type", "why_tests_cant": "Triples over all 64-bit values and strings cannot be enumerated.", "anchors": ["components/types/physical_value.cpp: operator<, operator==, cmp_less"]}
{"id": "C28", "title": "Numeric promotion preserves values", "statement": "When two values of different integer types meet in a comparison or an arithmetic operation, the common type they are promoted to represents both exactly whenever the table of promotions says it does.", "quantifier": "every pair of numeric types and every pair of values", "why_tests_cant": "All values of all type pairs.", "anchors": ["components/types/types.hpp: promote_type", "components/types/logical_value.cpp: cast_as, compare"]}
{"id": "C29", "title": "JSON pointer keys", "statement": "Any key, after escaping '~' and '/' as '~0' and '~1', addresses exactly that key; malformed escapes are rejected; splitting a path built from keys gives back those keys.", "quantifier": "every key and every list of keys (any characters)", "why_tests_cant": "All strings.", "anchors": ["components/document/document.cpp: unescape_key_, find_node_const", "components/document/string_splitter.cpp"]}
{"id": "C30", "title": "Document get/set laws", "statement": "Setting a value at a path makes that path read that value and leaves every unrelated path unchanged; removing a path makes it absent and leaves unrelated paths unchanged; failed operations leave the document unchanged.", "quantifier": "every document, every path, every value", "why_tests_cant": "All documents and paths.", "anchors": ["components/document/document.cpp: set_, get_, remove_, find_container_key, find_node_const", "components/document/json_trie_node.cpp", "components/document/json_object.cpp", "components/document/json_array.cpp"]}
{"id": "C31", "title": "Document merge", "statement": "Merging two documents gives, at every path, the second document's value where it defines one and the first's otherwise, recursively through objects, and removes what the second marks as deleted.", "quantifier": "every pair of documents", "why_tests_cant": "All documents.", "anchors": ["components/document/json_object.cpp: merge", "components/document/json_trie_node.cpp: merge"]}
{"id": "C32", "title": "Document comparison", "statement": "Comparison of documents by a field is antisymmetric and transitive so sorting by it is well defined. (Fails for fields holding values of unrelated types, and may throw.)", "quantifier": "every triple of documents", "why_tests_cant": "All triples of values.", "anchors": ["components/document/document.cpp: compare, compare_"]}
{"id": "C33", "title": "Document serialisation round trip", "statement": "A document encoded to MessagePack and decoded is equal to the original.", "quantifier": "every document", "why_tests_cant": "All nested documents.", "anchors": ["components/document/msgpack/msgpack_encoder.cpp", "components/document/json_trie_node.cpp"]}
{"id": "C34", "title": "Update operators", "statement": "An update applies its assignments in order: $set gives the field the value, arithmetic operators the computed value, and reports 'modified' iff the document changed; other fields are untouched.", "quantifier": "every document, every update expression tree", "why_tests_cant": "All expression trees and documents.", "anchors": ["components/expressions/update_expression.cpp", "components/physical_plan/collection/operators/operator_update.cpp"]}
{"id": "C35", "title": "Catalog trie is a map with history", "statement": "Looking up a namespace or field path returns the most recently inserted live value for exactly that path; erasing the last version makes the path absent and leaves every other path unchanged, including its prefixes and extensions.", "quantifier": "every sequence of insert/erase operations over all paths", "why_tests_cant": "Prefix/extension interactions over all histories.", "anchors": ["components/catalog/versioned_trie/versioned_trie.hpp", "components/catalog/versioned_trie/trie_containers.hpp", "components/catalog/namespace_storage.cpp"]}
{"id": "C36", "title": "Computed schema reflects live documents", "statement": "A dynamically computed schema lists a field type exactly while at least one live document contributes it.", "quantifier": "every sequence of append/drop of (field,type) pairs", "why_tests_cant": "Reference counts over unbounded histories.", "anchors": ["components/catalog/computed_schema.cpp: append, drop, drop_n, try_use_refcout, latest_types_struct"]}
{"id": "C37", "title": "Schema transactions are atomic", "statement": "A schema transaction changes the table schema only by a successful commit, applies exactly its recorded changes once, and rolling back to a savepoint discards exactly the changes made after it.", "quantifier": "every sequence of transaction operations", "why_tests_cant": "All operation sequences.", "anchors": ["components/catalog/transaction/metadata_transaction.cpp", "components/catalog/transaction/schema_diff.cpp", "components/catalog/transaction/transaction_scope.cpp"]}
{"id": "C38", "title": "Row visibility (snapshot isolation)", "statement": "A transaction sees a row iff the row's insert was committed before the transaction started or was made by itself, and its delete was not; chunk-wise scans, single-row fetches and the compact constant representation agree.", "quantifier": "every history of append/delete/commit/cleanup, every transaction, every row", "why_tests_cant": "All concurrent histories.", "anchors": ["components/table/row_version_manager.cpp: chunk_constant_info, chunk_vector_info, row_version_manager_t"]}
{"id": "C39", "title": "No lost delete conflict", "statement": "Two concurrent transactions can never both delete the same row: the second attempt is refused, whatever the interleaving.", "quantifier": "every interleaving of deletes and commits", "why_tests_cant": "All schedules.", "anchors": ["components/table/row_version_manager.cpp: chunk_vector_info::delete_rows, commit_delete"]}
{"id": "C40", "title": "Null mask semantics", "statement": "Marking rows null/valid, slicing, combining, resizing and copying null masks act row-wise: each row of the result is valid exactly when the row-wise definition says so, and the valid count is the number of valid rows.", "quantifier": "every mask, every size, every offset and count (aligned or not)", "why_tests_cant": "Bit/word boundary cases for all sizes.", "anchors": ["components/vector/validation.cpp: set, set_invalid, set_valid, row_is_valid, slice, slice_in_place, combine, resize, count_valid, copy_indexing"]}
{"id": "C41", "title": "Row-group lookup", "statement": "Looking up the segment of a row number finds the unique segment containing it if there is one, and reports absence otherwise, always terminating inside the array.", "quantifier": "every segment list, every row number", "why_tests_cant": "Binary search boundary cases for all sizes.", "anchors": ["components/table/segment_tree.hpp: try_segment_index, segment_index"]}
{"id": "C42", "title": "Table identifiers round trip", "statement": "A qualified table name parsed from text and printed again gives the same text, and different tables have different names.", "quantifier": "every identifier", "why_tests_cant": "All strings.", "anchors": ["components/catalog/table_id.cpp: parse, to_pmr_string, split_namespace, collection_full_name"]}
{"id": "C43", "title": "Lock mutual exclusion", "statement": "At most one thread holds the exclusive lock and no reader holds it at the same time, under every interleaving of lock/try_lock/unlock steps.", "quantifier": "every number of threads, every schedule", "why_tests_cant": "Schedules are unbounded.", "anchors": ["core/spinlock/spinlock.cpp", "core/spinlock/spinlock.hpp"]}
{"id": "C44", "title": "Logged operations deserialise to themselves", "statement": "An operation stored in the log (its plan tree, expressions, parameters and keys) is deserialised at replay to the same operation. (A numbered parameter comes back as a field key, and key kinds are swapped.)", "quantifier": "every expression operand: parameter ids, keys, nested expressions", "why_tests_cant": "All plans.", "anchors": ["components/serialization/serializer.cpp: msgpack_serializer_t", "components/serialization/deserializer.cpp: deserialize_param_storage, deserialize_key"]}
{"id": "C45", "title": "Positioned file reads", "statement": "Reading n bytes at an offset returns the n file bytes at that offset, or reports failure; short reads at the end of file never return other bytes as if they were there.", "quantifier": "every file content, offset, length and every split of the read into short reads", "why_tests_cant": "All short-read schedules.", "anchors": ["core/file/local_file_system.cpp: read, write"]}
{"id": "C46", "title": "Collection names are ordered consistently", "statement": "Fully qualified collection names compare as a strict total order, so a set of names never holds a name twice and never loses one.", "quantifier": "every pair and triple of qualified names", "why_tests_cant": "All strings.", "anchors": ["components/base/collection_full_name.hpp: operator<", "services/memory_storage/memory_storage.hpp: std::set<collection_full_name_t>"]}
{"id": "C47", "title": "Arithmetic on values is exact", "statement": "Sum, difference, product, quotient and remainder of two integer values give the mathematical result in a type that holds it. (Overflow of 32 or 64 bits, a zero or absent divisor are undefined; operands of two different types throw.)", "quantifier": "every operation, every integer type, every pair of values", "why_tests_cant": "All pairs of 64-bit values.", "anchors": ["components/types/logical_value.cpp: sum, subtract, mult, divide, modulus"]}
{"id": "C48", "title": "A value written to a document is read back", "statement": "A scalar stored in a document (null, boolean, integer of any width, 128-bit integer, floating point number, string) is read back with the same type and value, and later writes do not change it. (Unsigned 64-bit numbers from 2^56 on, and small signed and 32-bit floating point numbers over uninitialised memory, come back with another type.)", "quantifier": "every sequence of written values, every value, every content of uninitialised memory", "why_tests_cant": "All bit patterns and all earlier writes.", "anchors": ["components/document/impl/tape_builder.hpp: build, append", "components/document/impl/tape_writer.cpp: append_string", "components/document/impl/tape_ref.hpp: next_tape_value, tape_ref_type"]}
{"id": "C49", "title": "Reading a number as another type", "statement": "Reading a stored number as another integer type gives the same number, or an error if that type does not hold it. (Signed numbers wrap when read as narrower unsigned ones, 8-bit ones when read as unsigned, large doubles and NaN are undefined.)", "quantifier": "every pair of integer types, every number", "why_tests_cant": "All 64 pairs of types and all values.", "anchors": ["components/document/impl/element.cpp: cast_from, get_uint8 ... get_int64, get_int128"]}
{"id": "C50", "title": "Every client gets the answer to its own request", "statement": "A blocking call returns the answer to the request it made, whatever other threads call at the same time. (All calls share one slot: an answer that arrives before the previous one was picked up replaces it; the first caller gets the other one's answer, the second a null pointer.)", "quantifier": "every number of threads, every order of calls, answers, wake-ups and context switches", "why_tests_cant": "All interleavings of any number of threads.", "anchors": ["integration/cpp/wrapper_dispatcher.cpp: init, wait_result, wait_size, execute_plan_finish, size_finish", "integration/cpp/session_blocker.cpp: set_value, value, remove_session"]}
{"id": "C51", "title": "A client whose answer has arrived returns", "statement": "When the answer to a blocking call has arrived, the call returns without another request being needed to wake it. (load() can sleep for ever: its answer is announced without the mutex; a second call with the same session makes the first one forget that its answer arrived.)", "quantifier": "every number of threads, every order of calls, answers, wake-ups and context switches", "why_tests_cant": "Lost wake-ups depend on a window of one instruction.", "anchors": ["integration/cpp/wrapper_dispatcher.cpp: wait_result, wait_size, wait, notify, load_finish", "integration/cpp/session_blocker.cpp: set_value"]}
{"id": "C52", "title": "Sessions are unique", "statement": "Two sessions made in one process are never equal. (The counter is incremented and read in two steps: two threads can read the same value.)", "quantifier": "every number of threads, every interleaving, every reading of the clock", "why_tests_cant": "All interleavings.", "anchors": ["components/session/session.cpp: session_id_t::session_id_t, operator=="]}
{"id": "C53", "title": "Walking through an answer", "statement": "next returns the documents of an answer one after the other, each once and in order, then nothing; has_next says whether there is another one; get returns the one returned last; sorting begins again. (The answer of a table has rows and no documents: has_next is true and next throws.)", "quantifier": "every number of documents, every sequence of calls", "why_tests_cant": "All sequences of calls and all sizes.", "anchors": ["components/cursor/cursor.cpp: has_next, next_document, get_document, sort"]}
{"id": "C54", "title": "WHERE selects exactly the documents for which the condition is true", "statement": "SELECT * FROM t WHERE c returns exactly the documents of t for which c is true under the rules of SQL: comparisons with AND, OR, NOT, a missing field or NULL making a comparison unknown. (A comparison with the column on the right is read the wrong way round; NOT NOT c is NOT c; documents without the field satisfy > and <>; NULL constants are undefined behaviour; an expression is read as null; LIKE is a regular expression; numerals that are no 32-bit integers are rounded to float; the 65537th constant reuses a number; a function below the top is undefined behaviour.)", "quantifier": "every condition, every collection", "why_tests_cant": "All nestings of conditions and all documents.", "anchors": ["components/sql/transformer/impl/transfrom_common.cpp: get_value, transform_a_expr", "components/sql/transformer/impl/transform_select.cpp: transform_select", "components/logical_plan/param_storage.hpp: add_parameter"]}
{"id": "C55", "title": "SELECT gives the columns, rows and order it names", "statement": "SELECT with a list of columns returns for every selected document one row with these columns; with aggregate functions the groups of GROUP BY; ORDER BY sorts, LIMIT limits. (Columns without functions are DISTINCT; documents without a column are dropped; GROUP BY and LIMIT are not looked at; count(a) counts documents without a; aggregates over no document give no row; count(*) is undefined behaviour; ORDER BY a column not selected does not sort.)", "quantifier": "every list of targets, every collection, condition and order", "why_tests_cant": "All statements and all collections.", "anchors": ["components/sql/transformer/impl/transform_select.cpp: transform_select", "components/physical_plan_generator/impl/create_plan_group.cpp: create_plan_group", "components/physical_plan/collection/operators/aggregation.cpp"]}
{"id": "C56", "title": "JOIN ... ON in SQL", "statement": "SELECT * FROM l JOIN r ON c returns the pairs for which c is true, and for outer joins the documents without a partner. (A condition with the column of the right table first is checked against the wrong documents; so is a constant compared with a column of the right table.)", "quantifier": "every condition, every pair of collections", "why_tests_cant": "All conditions and all pairs of documents.", "anchors": ["components/sql/transformer/impl/transform_select.cpp: join_dfs", "components/sql/transformer/impl/transfrom_common.cpp: transform_a_expr"]}
{"id": "C57", "title": "DELETE removes exactly the documents it names", "statement": "DELETE FROM t WHERE c removes and reports exactly the documents for which c is true; with USING those with a partner; without WHERE all. (Without WHERE, USING is not looked at; conditions as in WHERE.)", "quantifier": "every condition, every collection", "why_tests_cant": "All conditions and all documents.", "anchors": ["components/sql/transformer/impl/transform_delete.cpp: transform_delete", "components/physical_plan/collection/operators/operator_delete.cpp: on_execute_impl"]}
{"id": "C58", "title": "UPDATE assigns what it says", "statement": "UPDATE t SET a = e, ... WHERE c gives every document for which c is true the values the expressions have for the document before the update, and changes nothing else; exactly the changed documents are reported. (A later assignment reads what an earlier one wrote; || is the cube root, <= a shift; -a is undefined behaviour, as are NULL and a missing column on the right; 0, false and '' are not assigned to a document without the column.)", "quantifier": "every list of assignments, every condition, every collection", "why_tests_cant": "All expressions, conditions and documents.", "anchors": ["components/sql/transformer/impl/transform_update.cpp: transform_update_expr, transform_update", "components/physical_plan/collection/operators/operator_update.cpp: on_execute_impl", "components/expressions/update_expression.cpp"]}
{"id": "C59", "title": "INSERT stores one document per row", "statement": "INSERT INTO t (columns) VALUES rows stores one document per row with exactly the named columns and the given values, and changes no other document. (Rows without _id, or with an _id that is not 24 hexadecimal digits, share the null identifier: only the last one is stored, and later statements are refused silently; NULL and too many values are undefined behaviour; decimal numbers are narrowed to float, expressions stored as null, names as texts.)", "quantifier": "every list of columns and rows, every collection", "why_tests_cant": "All rows and all collections.", "anchors": ["components/sql/transformer/impl/transform_insert.cpp: transform_insert", "components/sql/transformer/impl/transfrom_common.cpp: get_value", "components/document/document.cpp: get_document_id", "components/physical_plan/collection/operators/operator_insert.cpp: on_execute_impl"]}
{"id": "C60", "title": "Identifiers of documents are faithful to their text, ordered and unique", "statement": "The text of an identifier is 24 hexadecimal digits and parses back to it; other texts give the null identifier; identifiers compare as the numbers their texts show; the time put in is the time read; generated identifiers differ. (After 2^24 in a second they repeat; two processes that start in the same second generate the same ones.)", "quantifier": "every identifier, every text, every sequence of generated identifiers at every reading of the clock", "why_tests_cant": "2^96 identifiers and all texts.", "anchors": ["components/oid/oid.hpp: oid_t, init, to_string, compare, is_valid, get_timestamp", "components/document/document_id.hpp"]}
{"id": "C61", "title": "A scan of a table returns every row that is left, once, in order, with its current cells", "statement": "After any appends, deletes and updates, reading a columnar table to its end returns every row that was appended and not deleted exactly once and in order of its row id, with the cells last written to it (NULL stays NULL), in chunks of 1 to 1024 rows. Every append of chunks that fit the table returns.", "quantifier": "every list of column types, every history of appends, deletes and updates, every choice of columns", "why_tests_cant": "All histories and sizes; rows cross segments, vectors and row groups at arbitrary points.", "anchors": ["components/table/data_table.cpp: append, scan", "components/table/collection.cpp: append, scan, finalize_append", "components/table/row_group.cpp: templated_scan, append", "components/table/column_data.cpp: append_data, scan_vector", "components/table/table_state.cpp: scan"]}
{"id": "C62", "title": "Deleting rows of a table removes exactly these rows", "statement": "delete_rows with distinct row ids of rows that are there removes exactly these rows and returns their number; if one of the ids is not the id of a row that is there it throws. (More than 1024 ids of one row group, possible only with repetitions, overrun a buffer.)", "quantifier": "every history, every list of row ids", "why_tests_cant": "All histories and all lists of ids.", "anchors": ["components/table/data_table.cpp: delete_rows", "components/table/collection.cpp: delete_rows", "components/table/row_group.cpp: version_delete_state, delete_rows, flush"]}
{"id": "C63", "title": "Updating rows of a table changes exactly these rows", "statement": "update with distinct row ids and a chunk of new cells returns, and then the rows with these ids have the new cells and nothing else has changed. (An update is undefined behaviour if rows of the same 1024 were updated before, all with smaller ids.)", "quantifier": "every history, every list of row ids, every chunk", "why_tests_cant": "All histories: the merge of new with old updates depends on which rows were updated before.", "anchors": ["components/table/data_table.cpp: update", "components/table/collection.cpp: update", "components/table/update_segment.cpp: update", "components/table/update_segment.hpp: merge_update_loop_internal, initialize_update_data"]}
{"id": "C64", "title": "A scan with a filter returns the rows that satisfy it", "statement": "A scan with a filter (comparisons with constants, and, or) returns exactly the rows that are left and satisfy the filter; a comparison with NULL is not satisfied. (NULL is compared as 0; updated rows with their old values; beyond the first 1024 rows the scan is undefined behaviour.)", "quantifier": "every history, every filter", "why_tests_cant": "All histories, filters and sizes.", "anchors": ["components/table/row_group.cpp: check_predicate, filter_indexing", "components/table/column_data.cpp: check_predicate", "components/table/column_segment.cpp: fixed_size_check_row", "components/table/column_state.cpp: constant_filter_t::compare"]}
{"id": "C65", "title": "Fetching rows by id returns the current cells of these rows", "statement": "fetch with row ids returns, in the order of the ids, the current cells of the rows with these ids, and skips ids without a row. (Deleted rows are returned.)", "quantifier": "every history, every list of row ids", "why_tests_cant": "All histories and lists of ids.", "anchors": ["components/table/collection.cpp: fetch", "components/table/row_group.cpp: fetch_row", "components/table/column_data.cpp: fetch_row"]}
{"id": "C66", "title": "The size of a table is the number of rows that are left", "statement": "After any appends, deletes and updates calculate_size returns the number of rows that were appended and not deleted.", "quantifier": "every history", "why_tests_cant": "All histories and sizes.", "anchors": ["components/table/collection.cpp: calculate_size", "components/table/row_group.cpp: calculate_size"]}
{"id": "C67", "title": "Reading a table does not change it", "statement": "After a scan over all rows of a table with a callback the table holds the rows it held before. (With more than one row group every row group is overwritten with the rows of the next.)", "quantifier": "every table, every number of row groups", "why_tests_cant": "Depends on where result vectors point after each of arbitrarily many steps.", "anchors": ["components/table/collection.cpp: scan", "components/table/column_data.cpp: scan_vector", "components/table/column_segment.cpp: fixed_size_scan, fixed_size_fetch_row"]}
{"id": "C68", "title": "A query on a table returns all rows that satisfy its condition", "statement": "A query on a columnar table returns exactly the rows that are left and satisfy the condition, up to the limit, with their current cells. (Rows beyond one block of 1024 are not returned; conditions as in the property on filters.)", "quantifier": "every history, every condition, every limit", "why_tests_cant": "All histories, conditions and sizes.", "anchors": ["components/physical_plan/table/operators/scan/full_scan.cpp: on_execute_impl, transform_predicate", "components/physical_plan/table/operators/scan/transfer_scan.cpp: on_execute_impl"]}
{"id": "C69", "title": "DELETE on a table removes and reports exactly the rows that satisfy its condition", "statement": "A DELETE on a columnar table removes exactly the rows that are left and satisfy its condition, up to the limit, and reports these rows. (Without a condition it removes row 0 only unless a row was deleted before.)", "quantifier": "every history, every condition, every limit", "why_tests_cant": "All histories, conditions and sizes.", "anchors": ["components/physical_plan/table/operators/operator_delete.cpp: on_execute_impl", "components/vector/data_chunk.cpp: data_chunk_t", "components/physical_plan_generator/impl/create_plan_delete.cpp"]}
{"id": "C70", "title": "A condition on rows of a table selects exactly the rows it is true of", "statement": "The filter of a plan over a columnar table returns, in order, unchanged and up to the limit, exactly the rows its condition is true of (SQL three-valued logic: a comparison with NULL is not true). (NULLs are read and returned as zeros; `all_true` selects nothing; more than 1024 rows are undefined behaviour; fractions, negative numbers for unsigned columns and comparisons of two columns go wrong.)", "quantifier": "every chunk of rows, every condition, every parameter list, every limit", "why_tests_cant": "All conditions, nested arbitrarily, over all rows.", "anchors": ["components/physical_plan/table/operators/operator_match.cpp: on_execute_impl", "components/physical_plan/table/operators/predicates/simple_predicate.cpp: simple_predicate, create_simple_predicate", "components/vector/vector.cpp: value, set_value"]}
{"id": "C71", "title": "A join of tables returns exactly the pairs its condition is true of", "statement": "A join of two columnar tables returns the rows made of the pairs the condition is true of and, depending on its kind, the rows without a partner filled with NULL; the columns are those of the left, then those of the right that the left does not have. (Only inner joins return rows; NULLs are equal.)", "quantifier": "every two chunks, every condition, every kind of join", "why_tests_cant": "All tables and conditions.", "anchors": ["components/physical_plan/table/operators/operator_join.cpp: on_execute_impl, inner_join_, outer_full_join_, outer_left_join_, outer_right_join_, cross_join_", "components/physical_plan/table/operators/predicates/simple_predicate.cpp"]}
{"id": "C72", "title": "ORDER BY on a table returns the rows in the order asked for", "statement": "Sorting a columnar table by columns returns all its rows, each as often as it was there, ordered by the columns in the direction given for each. (The comparison passed to std::sort holds of equal rows: undefined behaviour; ascending and descending are exchanged.)", "quantifier": "every chunk, every list of columns and directions", "why_tests_cant": "The contract of std::sort concerns all pairs and triples of rows.", "anchors": ["components/physical_plan/table/operators/operator_sort.cpp: on_execute_impl", "components/physical_plan/table/operators/sort/sort.cpp", "components/physical_plan/table/operators/sort/sort.hpp"]}
{"id": "C73", "title": "GROUP BY on a table returns one row for each key with the aggregates of its rows", "statement": "Grouping a columnar table returns one row for each combination of values of the columns to group by, in the order of first appearance, with these values and the aggregates (count, sum, avg, min, max) over exactly the rows that have them; without columns to group by it returns one row. (NULLs count as zeros; no row for an empty table; two aggregates of one kind are undefined behaviour.)", "quantifier": "every chunk, every list of columns and of aggregates", "why_tests_cant": "All tables, all numbers and sizes of groups.", "anchors": ["components/physical_plan/table/operators/operator_group.cpp: on_execute_impl, create_list_rows, calc_aggregate_values", "components/physical_plan/table/operators/aggregate/operator_sum.cpp", "components/physical_plan/table/operators/aggregate/operator_avg.cpp", "components/physical_plan/table/operators/aggregate/operator_min.cpp", "components/physical_plan/table/operators/aggregate/operator_max.cpp", "components/physical_plan/table/operators/aggregate/operator_count.cpp"]}
{"id": "C74", "title": "An index on a table does not change what statements return or delete", "statement": "With an index on a column of a columnar table, a query or DELETE that compares the column with a constant works on exactly the rows that are left and satisfy the comparison, up to the limit, whenever the index was created and whatever was inserted and deleted before. (An index created on a table with rows finds none of them; a second INSERT into an indexed table is undefined behaviour; deleting one of several rows with the same key removes the entry of another.)", "quantifier": "every history of CREATE INDEX, INSERT and DELETE, every comparison, every limit", "why_tests_cant": "All histories, all orders of keys and all multiplicities.", "anchors": ["components/index/single_field_index.cpp: insert_impl, remove_impl, find_impl, lower_bound_impl, upper_bound_impl", "components/index/index_engine.cpp: insert_row, delete_row", "components/physical_plan/table/operators/scan/index_scan.cpp: search_by_index", "components/physical_plan/table/operators/operator_insert.cpp: on_execute_impl", "components/physical_plan/table/operators/operator_delete.cpp: on_execute_impl", "services/collection/create_index.cpp: create_index_finish"]}
{"id": "C75", "title": "CREATE TABLE makes a table with exactly the declared columns", "statement": "A CREATE TABLE statement that lists columns makes a table with exactly these columns, in this order, with their names and the types they are declared with, or is rejected when the engine has no such type. (DECIMAL modifiers are cut to a byte, only the first pair of array brackets counts, brackets without a size give 2^64-1 elements, lengths and qualifiers are dropped, arrays of unknown types are accepted, column constraints are ignored, a table constraint is undefined behaviour.)", "quantifier": "every CREATE TABLE statement: every list of elements, every type name, modifier list and list of array bounds", "why_tests_cant": "All type names, including all that are not in the table, and all modifiers.", "anchors": ["components/sql/transformer/impl/transform_table.cpp: get_type, transform_create_table", "components/sql/transformer/utils.hpp: get_logical_type", "components/sql/parser/gram.y: Typename, SimpleTypename, GenericType, Numeric", "services/memory_storage/memory_storage.cpp: create_collection_"]}
{"id": "C76", "title": "CREATE and DROP statements act on exactly the collections and indexes they name", "statement": "CREATE TABLE and DROP TABLE with one dotted name are about the same collection, different names are about different collections, CREATE INDEX makes exactly the index that DROP INDEX with its name drops, on the listed columns in that order, and DROP TABLE with several names drops every one of them. (It drops the first only; a name with five parts or more creates a collection without a name; an index on an expression is undefined behaviour; UNIQUE and WHERE are ignored.)", "quantifier": "every statement, every number of name parts, every list of names", "why_tests_cant": "All names and all statements; the agreement of two statements for every name.", "anchors": ["components/sql/transformer/impl/transform_table.cpp: transform_create_table, transform_drop", "components/sql/transformer/impl/transform_index.cpp: transform_create_index", "components/sql/transformer/utils.hpp: rangevar_to_collection", "components/sql/parser/gram.y: qualified_name, any_name_list, index_elem"]}
{"id": "C77", "title": "A query through an index kept on disk returns exactly the matching documents, whatever the schedule", "statement": "With an index kept on disk, every query that compares the indexed field with a constant is answered, with exactly the documents that match in the collection as it was when the query was asked, in the order of the field, up to the limit; a DELETE through the index removes exactly those; and nothing in between is undefined, however the work of the executor, of the index agent and the arrival of other requests are interleaved. (Documents older than the index are not found; a DELETE by another condition after a query, a query overlapping a DELETE, and a query by a session whose insert is still being written are undefined behaviour.)", "quantifier": "every schedule of requests (INSERT, queries and DELETEs through the index, other DELETEs), of the executor and of the index agent; every comparison, value and limit", "why_tests_cant": "Schedules are unbounded; tests see the few that the scheduler happens to produce.", "anchors": ["services/collection/create_index.cpp: create_index_finish, index_modify_finish, index_find_finish", "services/collection/executor.cpp: traverse_plan_, insert_document_impl, delete_document_impl", "services/disk/index_agent_disk.cpp: behavior, insert, remove, find", "components/index/index_engine.cpp: insert_document, delete_document, sync_index_from_disk", "components/index/single_field_index.cpp", "components/physical_plan/collection/operators/scan/index_scan.cpp: search_by_index, on_execute_impl, on_resume_impl"]}
{"id": "C78", "title": "With an index on disk, a restart brings back exactly the documents that were not deleted", "statement": "After any history of INSERTs, queries and DELETEs on a collection with an index kept on disk, stopping when all is done and starting again brings back the same documents, and queries through the index find them. (Documents deleted through the index come back; one document without the field makes the start undefined behaviour.)", "quantifier": "every history and schedule before the restart", "why_tests_cant": "All histories; what is on disk has to agree with what is in memory after each.", "anchors": ["services/collection/create_index.cpp: index_find_finish, create_index_finish", "services/collection/executor.cpp: delete_document_impl", "services/dispatcher/dispatcher.cpp: load_from_disk_result, load_from_memory_storage_result, wal_success", "services/disk/manager_disk.cpp: load_indexes_impl, create_index_agent, flush"]}
{"id": "C79", "title": "The indexes there are, are those created and not dropped, through restarts and crashes", "statement": "After any history of CREATE and DROP of collections and indexes, INSERTs, restarts and crashes, the indexes of each collection are exactly those that were created and not dropped; CREATE INDEX succeeds exactly if the collection is there and has no index of that name, DROP INDEX exactly if the index is there; a query on fields goes through an index exactly if there is one on them; what happens to one index or collection affects no other. (A refused CREATE INDEX leaves an empty index that queries use; dropping a collection that had an index is undefined behaviour and drops indexes of collections of the same name in other databases; a crash within DROP INDEX loses the others; the list on disk grows with every restart.)", "quantifier": "every history of statements, restarts and crash points, every number of databases, collections and indexes", "why_tests_cant": "Histories and crash points are unbounded; the same name in several places is needed to see the failures.", "anchors": ["services/disk/manager_disk.cpp: create_index_agent, drop_index_agent, flush, write_index_impl, load_indexes_impl, remove_index_impl, remove_all_indexes_from_collection_impl", "components/physical_plan/base/operators/operator_add_index.cpp: on_execute_impl", "components/physical_plan/base/operators/operator_drop_index.cpp: on_execute_impl", "components/index/index_engine.cpp: add_index, drop_index, matching", "services/collection/create_index.cpp: create_index_finish, create_index_finish_index_exist", "services/memory_storage/memory_storage.cpp: drop_collection_"]}
{"id": "C80", "title": "A value written to a row of a column is read back from it", "statement": "Whatever the type of a column of a data chunk (numbers, strings, lists, arrays, structs, nested in any way) and whatever was written to its rows before, reading a row returns the value last written to it, NULLs at any depth included, and no write changes another row. (TIMESTAMP values cannot be written, DECIMAL columns are undefined behaviour, and so is a list of arrays that grows.)", "quantifier": "every type, capacity and history of writes; values of every size and depth", "why_tests_cant": "Types nest without bound, and growth happens only at certain numbers of elements.", "anchors": ["components/vector/vector.cpp: vector_t, set_value, value, value_internal, resize, find_resize_infos", "components/vector/vector_buffer.cpp: list_vector_buffer_t::push_back, array_vector_buffer_t, struct_vector_buffer_t", "components/types/types.cpp: complex_logical_type::size"]}
{"id": "C81", "title": "A slice of a chunk, and a slice of a slice, has exactly the rows picked for it", "statement": "Slicing a chunk by a list of row numbers, and slicing the result again any number of times, gives a chunk with as many rows as were picked, each of which reads as the row of the first chunk it comes from, for columns of every type.", "quantifier": "every list of column types, contents and chain of slices", "why_tests_cant": "Chains of slices are unbounded, and types nest without bound.", "anchors": ["components/vector/vector.cpp: slice, value_internal", "components/vector/indexing_vector.cpp: slice, get_index", "components/vector/data_chunk.cpp: slice", "components/vector/vector_buffer.cpp: struct_vector_buffer_t"]}
{"id": "C82", "title": "A chunk built from rows, chunks and slices has exactly those rows", "statement": "A chunk built in any way from rows added, rows of other chunks appended (all or picked ones, growing if need be) and copied from an offset, and slices and parts of chunks, has exactly the rows of the corresponding lists, in order. (Arrays lose their elements when copied; growth of an array column, and adding rows after a reset, can be undefined behaviour.)", "quantifier": "every way to build a chunk, with every number of steps and rows, every list of column types", "why_tests_cant": "All compositions of the operations; sizes at which a chunk grows; nesting of types.", "anchors": ["components/vector/data_chunk.cpp: append, copy, slice, reset", "components/vector/vector_operations.cpp: copy", "components/vector/vector.cpp: resize, slice"]}
{"id": "C83", "title": "A value written to a row of a slice is read back from it", "statement": "Writing a value to a row of a sliced column, as UPDATE does with the rows that match, makes the row read as that value, and leaves the rows of the slice that are other rows of the chunk as they were. (NULL is not read back, a row that was NULL stays NULL, and a struct is written to another row.)", "quantifier": "every type, history of writes before the slice, list of rows picked, row and value", "why_tests_cant": "All types and contents; the failures show only for NULLs, structs and rows out of order.", "anchors": ["components/vector/vector.cpp: set_value, value_internal, slice", "components/physical_plan/table/operators/operator_update.cpp: on_execute_impl"]}
{"id": "C84", "title": "An answer reads the same as long as one keeps it", "statement": "The documents in the cursor of a SELECT, INSERT or other statement stay what they were when the statement was answered, whatever statements are run later by anyone: INSERT, INSERT ... SELECT and DELETE of those documents included. (An UPDATE of the same collection changes them, and so does a client that changes a document it inserted.)", "quantifier": "every history of statements on every number of collections before the answer, and every continuation", "why_tests_cant": "The later statements are unbounded in number and kind; a test compares a cursor right after the statement.", "anchors": ["components/physical_plan/collection/operators/scan/full_scan.cpp: on_execute_impl", "components/physical_plan/collection/operators/operator_update.cpp: on_execute_impl", "services/collection/executor.cpp: aggregate_document_impl, update_document_impl, insert_document_impl", "components/cursor/cursor.cpp: cursor_t"]}
{"id": "C85", "title": "Collections are separate from each other and from the documents of clients", "statement": "INSERT stores copies: after any history of statements each collection holds the documents that result from the statements on that collection alone, whatever is done to other collections that got the same documents (INSERT ... SELECT, the same document inserted twice) and whatever a client does to a document after it inserted it. (INSERT keeps the pointer of the client, INSERT ... SELECT * those of the other collection.)", "quantifier": "every history of INSERT, INSERT ... SELECT, SELECT, UPDATE, DELETE on every number of collections, and of changes clients make to documents they hold", "why_tests_cant": "Sharing shows only in histories that update one holder and read another; all histories have to be excluded.", "anchors": ["components/physical_plan/collection/operators/operator_insert.cpp: on_execute_impl", "components/physical_plan/collection/operators/operator_group.cpp: create_list_documents", "components/sql/transformer/impl/transform_insert.cpp: transform_insert", "integration/cpp/wrapper_dispatcher.cpp: insert_one, insert_many"]}
{"id": "C86", "title": "INSERT ... SELECT stores the rows the SELECT gives", "statement": "INSERT INTO t (c1, ..., cn) SELECT ... stores in t one document for each row of the SELECT, with the values of the row under the names c1 ... cn and an _id of its own (or the selected _id), and nothing else changes; a SELECT with another number of columns is refused. (Without _id all rows get the null id and only one stays; rows lacking a column are dropped; names of SELECT * are not replaced; functions are not counted.)", "quantifier": "every SELECT without joins, every column list, every content of both collections", "why_tests_cant": "Which rows stay depends on ids, names and missing fields of all documents of both collections.", "anchors": ["components/sql/transformer/impl/transform_insert.cpp: transform_insert", "components/physical_plan_generator/impl/create_plan_insert.cpp: create_plan_insert", "components/physical_plan/collection/operators/operator_insert.cpp: on_execute_impl"]}
{"id": "C87", "title": "UPDATE ... FROM assigns from the partner in the other collection", "statement": "UPDATE t SET ... FROM s WHERE ... gives each document of t that has partners in s for which the condition is true the values the expressions have for the old document and one of these partners, leaves every other document and every other field as it was, and reports each changed document once. (With several partners, or when the condition compares an assigned column, the code assigns several times, to what the earlier partners made.)", "quantifier": "every content of the two collections, all assignments of integer arithmetic on the columns of both tables, every condition comparing columns of the first with columns of the second or constants, every number of documents", "why_tests_cant": "The loop changes the documents it goes on comparing; which pairs meet depends on all documents and their order.", "anchors": ["components/physical_plan/collection/operators/operator_update.cpp: on_execute_impl", "components/sql/transformer/impl/transform_update.cpp: transform_update, transform_update_expr", "components/physical_plan_generator/impl/create_plan_update.cpp: create_plan_update", "components/expressions/update_expression.cpp: execute"]}
{"id": "C88", "title": "A C program that uses the handles it holds gets the right results", "statement": "Through the C interface, a program that uses each database, cursor and document handle only between the call that gave it and its release, and before the database is destroyed, never causes undefined behaviour and gets from every call the right result: sizes, the documents one after the other, by index and the current one, success and error, the answers about what is at a key or an index of a document, the values there, sub-documents that stay usable after their document was released, and the identifier. (A handle to no document, rows of tables and some unsigned integers break it.)", "quantifier": "all programs, that is lists of calls of any length in any order on any number of handles, with every answer of the engine and every document", "why_tests_cant": "Handles live and die in any order; tests release everything in one order and only ask documents that are there.", "anchors": ["integration/c/main.cpp: otterbrix_create, otterbrix_destroy, execute_sql, release_cursor, cursor_next, cursor_get, cursor_get_by_index, document_is_valid, document_get_array_by_key, release_document", "components/cursor/cursor.cpp: next_document, get_document", "components/document/document.cpp: find_node_const, get_array, get_dict"]}
{"id": "C89", "title": "A text read through the C interface is the text stored", "statement": "document_get_string_by_key and document_get_string_by_index return the text that is in the document, and cursor_get_error the message of the error, whatever their length and bytes. (Texts of 40 bytes and messages of 32 are written beyond the memory allocated; what follows a zero byte is lost.)", "quantifier": "every document, every place in it, every text, every error message", "why_tests_cant": "The overflow depends on the length of the text and mostly goes unnoticed by the program that causes it.", "anchors": ["integration/c/main.cpp: document_get_string_by_key, document_get_string_by_index, cursor_get_error, document_id"]}
{"id": "C90", "title": "Texts stored in a table column are read back unchanged", "statement": "Appending batches of texts and NULLs to a column of texts takes of each batch as many cells as fit into the segment, no more and no fewer, never writes outside its memory, and from then on reading any row by its id, filtering it, or scanning any run of rows returns the texts that were put there, NULL as the empty text; so everything said about tables holds for columns of texts. (It fails for texts of 4096 bytes and more, which cannot be read, and for the NULLs that follow them.)", "quantifier": "all contents of the memory of the segment at the start, all segment sizes, all lists of batches of texts of any length and bytes and NULLs, all rows and runs of rows", "why_tests_cant": "Offsets, texts and header share one block that fills from both ends; errors depend on lengths, order and the place where it becomes full.", "anchors": ["components/table/column_segment.cpp: string_append, remaining_space, string_fetch_row, string_check_row, string_scan_partial, write_string_memory, read_string_marker, fetch_string_from_dict"]}
{"id": "C91", "title": "Python objects stored through the Python API read back as themselves", "statement": "A dict with text keys, made of Booleans, integers, floats, texts, bytes, lists, tuples and dicts in any nesting, that is inserted through the Python API reads back as the same dict, except that tuples read back as lists, bytes as the text of their base64, and that an `_id` is added if there was none. (It fails for None, which reads back as some other value of the document, and for integers beyond 64 bits, which end the process.)", "quantifier": "all Python dicts of any nesting depth and size whose texts fit the tape, both orders of evaluation a compiler may choose, all base64 and UTF-8 conversions", "why_tests_cant": "Values are written one after another on one tape and referred to by position; an error shows only for particular nestings and neighbours.", "anchors": ["integration/python/sql/convert.cpp: build_primitive, build, to_document, from_value, from_document", "integration/python/sql/wrapper_collection.cpp: generate_document_id_if_not_exists"]}
{"id": "C92", "title": "Conditions of find mean what they say", "statement": "Through the Python API, find, delete and update with a condition choose exactly the documents that satisfy it, where all entries of a dict must hold, a field is compared as its operators ($eq, $ne, $gt, $gte, $lt, $lte, $regex) say, $and holds if all its members do, $or if one does and $not if its argument does not. (Proved for ordinary field names, $or alone at the root, no $not at the root, alternatives and negated conditions of one entry each, no None; it fails outside of that.)", "quantifier": "all conditions of any nesting depth with less than 65536 values, all documents, all collections, all regular expression engines", "why_tests_cant": "Conditions nest without bound and each is flattened into one expression; an error shows only for particular combinations.", "anchors": ["integration/python/sql/convert.cpp: parse_find_condition_, parse_find_condition_dict_, parse_find_condition_array_, normalize_union", "components/expressions/compare_expression.cpp: get_compare_type", "components/physical_plan/collection/operators/predicates/simple_predicate.cpp", "components/logical_plan/param_storage.hpp"]}
{"id": "C93", "title": "update_one and update_many change what they are asked to", "statement": "Through the Python API, update_many with $set and $inc changes exactly the documents that satisfy the condition, and update_one exactly the first of them: the fields of $set get the values given, the fields of $inc are increased by them (a missing field becomes the number), every other field and every other document stays as it was, and the ids reported are those of documents in which some field got another value. (It fails for $set of zero, False or an empty text on a missing field, for nested values, for other operators and for documents added by upsert.)", "quantifier": "all collections, all conditions as in the property on find, all updates of any number of fields, all orders in which a hash map visits them, all floating point additions", "why_tests_cant": "The assignments are run one after another on the changing document, in the order of a hash map; interference shows only for particular fields and orders.", "anchors": ["integration/python/sql/wrapper_collection.cpp: update_one, update_many", "components/physical_plan/collection/operators/operator_update.cpp: on_execute_impl", "components/expressions/update_expression.cpp", "components/physical_plan_generator/impl/create_plan_update.cpp"]}
{"id": "C94", "title": "Pinned buffers keep their bytes and memory stays within the limit", "statement": "Whatever sequence of allocations, pins, unpins, reservations, writes, reads and changes of the limit clients of the buffer manager make: a buffer somebody has pinned is never thrown away and reads return the bytes last written to it; a block that was unpinned can be pinned again with its contents, unless it was allocated as one that may be destroyed and memory was short since; memory is refused only if what must stay in memory leaves no room for it within 2 MiB; the memory reported per kind and in total is at least what must be in memory and at most what is allocated, and the total never exceeds the limit by more than 2 MiB; resizing a buffer keeps its contents. (It fails for blocks allocated as not to be destroyed, which are thrown away too, and for the last 8 bytes of a resized buffer.)", "quantifier": "all limits, all finite histories of calls from any threads (one at a time), all contents of fresh memory", "why_tests_cant": "Which block is evicted depends on the whole history of pins and unpins, on the age of queue entries, on purges every 4096 insertions and on counters cached per thread; tests do not reach the limit of 4 GiB.", "anchors": ["components/table/storage/standard_buffer_manager.cpp: register_memory, register_small_memory, allocate, pin, unpin, reserve_memory, set_memory_limit", "components/table/storage/buffer_pool.cpp: evict_blocks, add_to_eviction_queue, purge_queue, memory_usage_t, set_limit", "components/table/storage/block_handle.cpp: load, unload_and_take_block, can_unload", "components/table/storage/file_buffer.cpp: resize, reallocate_buffer"]}
{"id": "C95", "title": "A document written as JSON text is read back as the same document", "statement": "For every document, document_from_json of its to_json gives a document with the same objects, arrays, names, texts, booleans, nulls and numbers (by value) in the same places. (It fails for texts and names with quotes, backslashes or control characters, for 64-bit integers beyond 32 bits, for 128-bit numbers, for floats that are not short decimals, for doubles of 24 characters, NaN and infinities, and beyond 32 containers within each other.)", "quantifier": "all documents of any shape and size, all honest implementations of printf, UTF-8 checks and decimal conversion", "why_tests_cant": "Tests convert a few literal documents with short ASCII texts and small numbers; the failures depend on single characters in texts, on the size of integers and on the number of digits of doubles.", "anchors": ["components/document/document.cpp: document_t::to_json, value_to_string, create_pmr_string_, document_from_json, build_index, build_primitive", "components/document/json_trie_node.cpp: to_json", "components/document/container/json_object.cpp: to_json, set", "components/document/container/json_array.cpp: to_json"]}
{"id": "C96", "title": "A column of nested values gives back the values appended to it", "statement": "For every type built from lists, fixed-size arrays and structs, after any number of batches of rows were appended to a new column, the column knows how many rows it has, a scan from the start or from any row on gives the appended values in order (with NULLs at every level), and so does fetching any rows one by one into one result. (It fails when arrays are elements of lists or of arrays.)", "quantifier": "all nested types, all batches (flat or dictionary vectors, any rows of them, any layout of the list elements), all scan offsets and lengths, all sequences of fetched rows", "why_tests_cant": "Tests append one flat vector of one nesting level; offsets, elements behind NULLs, segment boundaries and dictionary vectors at several levels interact in ways only a proof for all types covers.", "anchors": ["components/table/list_column_data.cpp: append, scan_count, initialize_scan_with_offset, fetch_row", "components/table/array_column_data.cpp: append, scan_count, fetch_row", "components/table/struct_column_data.cpp: append, scan_count, fetch_row", "components/vector/vector_operations.cpp: copy", "components/vector/vector.cpp: flatten, value, resize"]}
{"id": "C97", "title": "UPDATE on a table with columns changes the rows it is about and no others", "statement": "For every table and every UPDATE ... SET ... [WHERE ...] [LIMIT], the statement returns the rows the condition chooses with their new cells and reports as many modified rows as have changed; reading the table afterwards, by scan, gives the new cells for these rows and the old ones for all others, where every right side is about the row before the statement; no row is added or removed. (It fails without a condition, after an earlier UPDATE, and when a right side reads a column set before it.)", "quantifier": "all tables reachable by appends, deletes and updates, all conditions and limits, all lists of assignments with any expressions", "why_tests_cant": "Tests update a handful of rows once; the failures depend on which rows were updated before, on aliasing of scan results with stored data and on the order of assignments.", "anchors": ["components/physical_plan/table/operators/operator_update.cpp: on_execute_impl", "components/expressions/update_expression.cpp: update_expr_set_t::execute_impl, update_expr_get_value_t::execute_impl", "components/table/column_segment.cpp: fixed_size_scan", "components/table/data_table.cpp: update", "components/physical_plan_generator/impl/create_plan_update.cpp"]}
{"id": "C98", "title": "Rows keep their values through the Arrow interface", "statement": "For every chunk, handing it over as Arrow arrays and taking these in again gives a chunk with the same values in the same rows, NULLs at every level included; and every well-formed Arrow array another program hands over, sliced or not, is taken in as exactly the rows the Arrow format says it has. (It fails for sliced chunks, sliced structs, arrays inside lists, dictionaries and sliced validity buffers without padding.)", "quantifier": "all types built from numbers, booleans, strings, lists, arrays and structs, all vectors of them, flat or by selection, all well-formed arrays with any offsets", "why_tests_cant": "Tests hand over unsliced chunks of a few types; the failures depend on offsets, bit positions and nesting.", "anchors": ["components/vector/arrow/arrow_converter.cpp: to_arrow_array, data_chunk_from_arrow", "components/vector/arrow/arrow_appender.cpp: append, finalize_child", "components/vector/arrow/appender/list_data.hpp: append_offsets", "components/vector/arrow/scaner/arrow_conversion.cpp: arrow_column_to_vector, arrow_to_list, arrow_to_array, get_validity, shift_right", "components/vector/arrow/scaner/arrow_type.cpp: add_dictionary"]}
{"id": "C99", "title": "Schemas keep names and types through the Arrow interface", "statement": "Every Arrow schema is read with the types it describes; columns get pairwise different, non-empty names, and keep the ones they have when these are different already. The schema handed out for a chunk describes its columns, names included. (Handing out is undefined for every column with a name; unique names can change when others are repeated.)", "quantifier": "all schemas of scalars, decimals, lists, arrays, structs and maps with any names; all lists of columns", "why_tests_cant": "The memory error writes a few bytes beyond a heap cell, which tests rarely notice; names collide only for particular combinations.", "anchors": ["components/vector/arrow/arrow_converter.cpp: add_name, set_arrow_format, to_arrow_schema, deduplicate, populate_arrow_table_schema, schema_from_arrow", "components/vector/arrow/scaner/arrow_type.cpp: type_from_format"]}
{"id": "C100", "title": "Queries are split into the tokens they were written as", "statement": "Every query, whatever its bytes, is split to its end or refused. Texts (quoted with doubled quotes, with escapes, between dollar signs), quoted names, names and keywords in any case, numbers, operators and parameters are read as the value they were written for, however they are laid out, and a quoted text is one token whatever it contains, so that none of it is taken for SQL. Blanks and nested comments are passed over. (Integers from 2^31 to 2^63 - 1 are read as other numbers, names are cut at 63 bytes, a 0 ends the query.)", "quantifier": "all byte strings; all texts, names, numbers and lists of tokens with all layouts", "why_tests_cant": "Which characters a quoted text may contain, how tokens meet, and every one of 475 keywords in every case are beyond any list of examples.", "anchors": ["components/sql/parser/scan.l", "components/sql/parser/scansup.cpp: downcase_truncate_identifier, truncate_identifier, pg_encoding_mbcliplen", "components/sql/parser/keyword.cpp: ScanKeywordLookup", "components/sql/parser/kwlist.h"]}
{"id": "C101", "title": "What is stored in one place is not changed through another name", "statement": "The documents of a collection, each index, the files about databases and the log are kept in files of their own: whatever is stored, dropped and stored again in any order, each is read back as it was written last, nothing outside the storage directory is written or removed. (True for names that can be names of files; an index named base_index, names with slashes, .. and absolute paths break it.)", "quantifier": "all configurations, all names, all histories of writing and dropping collections and indexes, all other files on the machine", "why_tests_cant": "Tests use names such as collection1; the failures need particular names, and what they destroy is found out much later.", "anchors": ["services/disk/disk.cpp: save_document, append_collection, remove_collection", "services/disk/index_agent_disk.cpp: index_agent_disk_t", "services/disk/index_disk.cpp: drop", "services/disk/manager_disk.cpp: manager_disk_t", "services/wal/wal.cpp: wal_replicate_t", "core/b_plus_tree/b_plus_tree.cpp: btree_t", "core/file/local_file_system.cpp: open_file, remove_directory"]}
{"id": "C102", "title": "No two instances use one directory at the same time", "statement": "Whatever threads make and destroy instances in whatever order, two instances that exist at the same time have different directories, a second instance for a directory in use is refused, and a directory no instance uses can be opened again. (True for the texts of paths while no constructor fails; two spellings, overlapping destruction and failed opening break it.)", "quantifier": "all interleavings of making, failing and destroying any number of instances with any configurations", "why_tests_cant": "The overlaps are races between threads, the failures depend on the file system at the time.", "anchors": ["integration/cpp/base_spaces.cpp: base_otterbrix_t, ~base_otterbrix_t", "components/configuration/configuration.hpp: config", "integration/c/main.cpp: otterbrix_create"]}
{"id": "C103", "title": "Every request is answered, once", "statement": "Whatever any number of clients send at the same time and in whatever order dispatcher, executor, log and disk handle their messages, no request is answered twice, every answer is for the request it names, no order of turns can keep a request waiting for ever, and while the process runs every request is answered. The process does not end by itself. (A drop that meets another request on the same collection or database ends the process.)", "quantifier": "all lists of requests of any number of clients, all interleavings of the actors, crashes and restarts at any point", "why_tests_cant": "Lost and doubled answers and requests that wait for each other depend on the order in which messages of different requests are handled.", "anchors": ["services/dispatcher/dispatcher.cpp: execute_plan, execute_plan_finish, wal_success", "services/memory_storage/memory_storage.cpp: execute_plan, execute_plan_impl, drop_collection_", "services/collection/executor.cpp: execute_plan", "services/wal/wal.cpp", "services/disk/agent_disk.cpp", "integration/cpp/wrapper_dispatcher.cpp: execute_plan_finish"]}
{"id": "C104", "title": "The schema of a collection follows its documents", "statement": "Once all that was executed has reached the catalog, the schema a client is given for a collection without a declared schema lists exactly the fields that documents of the collection have, each with a type that one of them has, whatever was inserted, removed and changed in whatever order executor, log and dispatcher went on; and keeping the schema never ends the process. (Updates, refused inserts, deletes that overlap, restarts and some names of fields break it.)", "quantifier": "all histories of inserts, deletes and updates on any number of collections, all interleavings of executor, dispatcher and log, all names, types and numbers of fields", "why_tests_cant": "The counts of the schema drift from the documents only after certain histories, and the place for the result of a delete is shared by all requests.", "anchors": ["services/dispatcher/dispatcher.cpp: update_catalog, execute_plan_delete_finish, wal_success, get_schema, load_from_memory_storage_result", "services/collection/executor.cpp: execute_sub_plan_finish_, create_documents", "components/physical_plan/base/operators/operator_write_data.cpp", "components/physical_plan/collection/operators/operator_delete.cpp", "components/catalog/computed_schema.cpp"]}
{"id": "C105", "title": "Inserts, find_one and deletes from Python do what they say", "statement": "From Python, insert_one and insert_many of new documents store exactly these, change no others and return their ids; an insert that is refused says so. find_one returns the first document, by id, that satisfies the condition, and an empty dict only if none does. delete_many removes exactly the documents that satisfy the condition and delete_one the first of them, and the length of the answer is how many were removed. (Some names of fields, $not at the root and refused inserts break it.)", "quantifier": "all conditions of any nesting, all collections of documents, all batches of documents to insert", "why_tests_cant": "Whether what is removed is what the condition says depends on the shape of the condition and the names in it, of which there is no bound.", "anchors": ["integration/python/sql/wrapper_collection.cpp: insert_one, insert_many, find_one, delete_one, delete_many", "integration/cpp/wrapper_dispatcher.cpp", "components/logical_plan/node_delete.cpp", "components/physical_plan/collection/operators/operator_delete.cpp", "services/collection/executor.cpp: insert_document_impl, delete_document_impl"]}
{"id": "C106", "title": "A cursor in Python visits the documents of the answer", "statement": "From Python, a loop over a cursor visits every document of the answer once and in order, and reading a field inside it reads from that document; len, hasNext, cursor[i] and cursor[\"field\"] agree with a position in that list whatever is called in whatever order; sort rearranges the same documents by its keys and begins again. What is beyond the end raises an exception. (It does not: null pointers are used there, and in the answers to deletes.)", "quantifier": "all answers, all sequences of calls, all sort keys and directions", "why_tests_cant": "The sequences of calls are unbounded, and sort leaves the order of equal documents open.", "anchors": ["integration/python/sql/wrapper_cursor.cpp", "integration/python/main.cpp", "integration/python/sql/convert.cpp: from_document, from_object, to_sorter, to_order", "components/cursor/cursor.cpp"]}
{"id": "C107", "title": "A query text executes its statements, or nothing if one of them is wrong", "statement": "A text given to execute_sql is taken apart at the semicolons outside of texts, names and comments. If it holds one statement, with any number of empty ones around it, that statement is executed once; if any part is not a statement the text is refused and nothing is executed, not even what stands before the error. A text with several statements executes them in order and one with none does nothing. (It executes only the first; with none the front of an empty list is used.) What a statement means does not depend on the ones around it.", "quantifier": "all texts, all divisions into statements, all grammars of one statement", "why_tests_cant": "The texts are unbounded, and the scanner reads one token ahead for some words, which must never reach into the next statement or lose a token.", "anchors": ["components/sql/parser/parser.cpp: raw_parser, base_yylex", "components/sql/parser/gram.y: stmtmulti, stmt", "components/sql/parser/pg_std_list.cpp: lappend", "integration/cpp/wrapper_dispatcher.cpp: execute_sql"]}
{"id": "C108", "title": "The size of a collection is the number of documents it has", "statement": "size (len of a collection in Python) is answered once for every request, with the number of documents the collection had at some moment between the request and the answer, whatever other clients do meanwhile, and 0 only if it had none or did not exist; asking for it changes nothing and the process goes on. (For a collection that does not exist, is being dropped or is being written to the process ends.)", "quantifier": "all schedules of any number of clients, all numbers of requests, crashes included", "why_tests_cant": "Counting happens on another thread than the writes, and between checking that the collection exists and counting any request of another client may be handled; the interleavings are unbounded.", "anchors": ["services/dispatcher/dispatcher.cpp: size, size_finish, check_collectction_exists", "services/memory_storage/memory_storage.cpp: size", "integration/cpp/wrapper_dispatcher.cpp: size, size_finish", "integration/python/sql/wrapper_collection.cpp: size"]}
{"id": "C109", "title": "The names listed in Python are the databases and collections there are", "statement": "After any calls of a Python program, client.database_names() lists the databases and db.collection_names() the collections of the database, each once; db[name] gives an object of a collection that exists afterwards; db.drop_collection(name) is True exactly if the collection existed, and afterwards it neither exists nor is listed; every call returns. (The lists hold only what was asked for through the same object: they agree with what exists only while the collections are made and dropped through that one object.)", "quantifier": "all sequences of calls of a Python program: databases and collections by name, drops through either object, queries, restarts", "why_tests_cant": "The lists are kept by the objects beside the node; whether they agree depends on the whole history of calls through all objects, of which there are unboundedly many.", "anchors": ["integration/python/sql/wrapper_client.cpp: get_or_create, database_names, execute", "integration/python/sql/wrapper_database.cpp: create, drop_collection, collection_names", "integration/python/sql/wrapper_collection.cpp: drop", "integration/cpp/wrapper_dispatcher.cpp: create_database, create_collection, drop_collection"]}
{"id": "C110", "title": "A C program finds what was stored when it starts again", "statement": "A process that opens a directory through the C interface finds the databases, collections and documents that were stored in it, and what it stores is found by the next process. (It does not: the C interface never loads. Every collection is reported missing and requests are answered as if nothing had been stored; a program that only asks changes nothing, and the next start with load finds what was there; one that creates the collections again can be told that a document is stored which the next start does not find.)", "quantifier": "all histories of processes and requests before, all schedules of requests of the C program after its start", "why_tests_cant": "What is on the disk depends on the whole history before the start, and the requests of the program after it are arbitrary and interleave.", "anchors": ["integration/c/main.cpp: otterbrix_create", "integration/c/otterbrix.h", "integration/cpp/otterbrix.cpp: make_otterbrix", "integration/cpp/wrapper_dispatcher.cpp: load", "integration/python/sql/wrapper_client.cpp: wrapper_client", "services/dispatcher/dispatcher.cpp: load, load_from_disk_result, load_from_memory_storage_result, load_from_wal_result"]}
{"id": "C111", "title": "A pattern of file names matches exactly the names it describes", "statement": "The matcher of file name patterns accepts a name if and only if the pattern is well formed and the name is put together from what its parts stand for: `*` for any text, `?` for one byte, `[...]` and `[!...]` for a byte in or not in the listed bytes and ranges, a backslash and a byte for that byte, any other byte for itself. A name without special characters, used as a pattern, matches that name and no other. (The last is false for names with a backslash.)", "quantifier": "all patterns and all names of any length", "why_tests_cant": "Names and patterns have no bound, stars can take any part of the name, and patterns can be malformed in many ways.", "anchors": ["core/file/path_utils.cpp: glob", "core/file/path_utils.hpp: glob", "core/file/local_file_system.cpp: has_glob, glob_files_internal"]}
{"id": "C112", "title": "A search for files by a pattern of paths finds exactly those that fit", "statement": "A search for files by a pattern of paths finds a regular file if and only if its names fit the parts of the pattern one by one, where `**` stands for any directories on the way; if the last part is a plain name also a directory of that name. If nothing fits, it finds the file whose path is the text of the pattern. A path without special characters finds that file only. (This is false for absolute patterns that begin with a special part, for `**` as the first of several parts, for two `**`, and with a colon in the first part.)", "quantifier": "all trees of files and directories, all patterns of any number of parts, absolute and relative", "why_tests_cant": "Trees and patterns have no bound in depth and size, and a part can lead to any number of directories from which the rest is searched.", "anchors": ["core/file/local_file_system.cpp: glob_files, glob_files_internal, recursive_glob_directories, fetch_file_without_glob, list_files, file_exists, directory_exists", "core/file/path_utils.cpp: glob"]}
{"id": "C113", "title": "Metadata of Arrow schemas are read as they were written", "statement": "The options of metadata that are written to a block and read from it are the same, in whatever order they are written and whatever follows in memory; an option that is set has its value and the others keep theirs. (This holds as long as counts and lengths are below 2 GiB; beyond that the reader throws. An empty option cannot be told from one that is not set, the metadata of a vendor's type do not name it, and a block that is too short is read beyond its end.)", "quantifier": "all metadata with any number of options and texts of any length, in any order", "why_tests_cant": "Keys and values are arbitrary bytes of any length, so a byte of one can look like the length of the next.", "anchors": ["components/vector/arrow/schema_metadata.cpp: arrow_schema_metadata_t, add_option, get_option, serialize_metadata, has_extension, arrow_canonical_type, non_canonical_type", "components/vector/arrow/schema_metadata.hpp: arrow_schema_metadata_t", "components/vector/arrow/scaner/arrow_type.cpp: type_from_schema"]}
{"id": "C114", "title": "The log id noted by the disk is the one a load starts from", "statement": "When the disk is asked from which log record a load has to start, it answers with the id noted last, in every history of notes, loads and restarts; if the program stops while an id is noted, the next one reads that id or the one before. (This holds for the first load of each program; a second load gets 0 or a part of the id, and a stop in the middle of the text leaves a mixture of both ids, which can be larger than both.)", "quantifier": "all histories of notes, loads and restarts, all ids of 64 bits, all bytes at which a note can stop", "why_tests_cant": "Which digits are mixed depends on the two ids and on the byte at which the program stops; no test stops it at each.", "anchors": ["services/disk/disk.cpp: fix_wal_id, wal_id", "services/wal/base.hpp: id_from_string", "core/file/file_handle.cpp: read_line", "services/disk/agent_disk.cpp: load, fix_wal_id", "core/file/local_file_system.cpp: read, write, truncate"]}
{"id": "C115", "title": "The file of indexes is read as it was written", "statement": "After any number of indexes made and dropped and collections dropped, the file that keeps them is read as exactly the indexes there are, in the order they were made; if the program stops while an index is made, the next one reads all others, with or without that one. (This holds for stops before the size or behind the text of the new index; in between a text is read that was never written, up to undefined behaviour, and indexes made later can be lost.)", "quantifier": "all histories of indexes made and dropped, all names and fields, all bytes at which the program can stop", "why_tests_cant": "The texts have any length and any bytes, and a stop can be at every one of them.", "anchors": ["services/disk/manager_disk.cpp: write_index_impl, read_indexes_impl, remove_index_impl, remove_all_indexes_from_collection_impl", "core/file/local_file_system.cpp: read", "components/logical_plan/node_create_index.cpp: serialize_impl, deserialize", "components/serialization/deserializer.cpp: msgpack_deserializer_t"]}
{"id": "C116", "title": "A comparison of two columns finds exactly the rows for which it holds", "statement": "Comparing two columns of rows gives the number of rows in which both are not null and the comparison holds, these rows and all the others, each in order, whether a column is stored row by row, as one value for all rows or by references. (This holds if one of the selections is asked for and, for two columns stored row by row, the null mask of the right one is not the shorter one.)", "quantifier": "all comparisons, all columns of any kind and length with nulls anywhere, all selections asked for", "why_tests_cant": "Null masks are looked at by words of 64 rows with cases of their own for words of all, none and some nulls and for the last one; tests have a few rows.", "anchors": ["components/vector/vector_operations.hpp: compare, select, select_const, select_flat, selection_flat_loop, select_generic, select_generic_loop", "components/vector/validation.cpp: combine, get_validity_entry, row_is_valid", "components/vector/vector.cpp: to_unified_format", "components/table/data_table.cpp: update"]}
{"id": "C117", "title": "Rows with the same cells have the same hash", "statement": "Hashing the rows of a chunk gives every row a hash. Rows with the same cells, null or not, single values or lists, have the same hash, in whichever chunks and places they are and however their columns are stored; rows that differ in one single value, with different hashes, have different hashes. (This holds if all types of the columns have a hash: 128-bit integers and intervals do not.)", "quantifier": "all chunks of columns of simple types and of lists of any depth, stored row by row, as one value for all rows or by references, with nulls anywhere; all rows of two such chunks", "why_tests_cant": "The hash is made by different loops for each way of storing the columns before and after it, and for lists by rounds over all rows at once; tests use one chunk.", "anchors": ["components/vector/data_chunk.cpp: hash", "components/vector/vector_operations.cpp: hash, combine_hash, templated_loop_hash, templated_loop_combine_hash, tight_loop_hash, tight_loop_combine_hash, tight_loop_combine_hash_const, list_loop_hash, combine_hash_scalar, hasher_t", "components/vector/vector.cpp: to_unified_format, flatten"]}
{"id": "C118", "title": "A slice of a chunk has the rows asked for, whatever its columns share", "statement": "Slicing a chunk by a list of rows leaves in every column exactly these rows, in this order, and changes no other column, whichever columns share their lists of references and whatever memory is used again; the slice keeps its rows when the caller goes on to use the list for something else. (The last part fails for columns that were stored row by row: they keep looking at the caller's list.)", "quantifier": "all chunks of flat, constant and dictionary columns, all ways in which columns, other chunks and the caller share arrays, all allocators that only give out memory nobody uses, all lists of rows within range, all later writes to the list", "why_tests_cant": "Composed references are cached by the address of the old ones, so the result could depend on which memory is shared, freed and given out again; tests do not choose addresses.", "anchors": ["components/vector/data_chunk.cpp: slice", "components/vector/vector.cpp: slice", "components/vector/indexing_vector.cpp: slice, get_index, set_index, indexing_vector_t", "components/vector/indexing_vector.hpp: indexing_cache_t", "components/vector/vector_buffer.cpp: dictionary_vector_buffer_t"]}
{"id": "C119", "title": "Vectors of plain values keep what is written to them", "statement": "After any sequence of reserving, resizing, shrinking and writing elements a vector of plain values has the number of elements asked for last, and every element shows the value last written to it since it came into being. (This fails for minus zero, which becomes zero, for sizes of 2^64 bytes and more, which wrap around, and growing a vector without memory is undefined.)", "quantifier": "all element sizes, all sequences of operations, all values", "why_tests_cant": "What survives depends on the order of changes of size and capacity; tests make a few.", "anchors": ["core/buffer.hpp: buffer, reserve, resize, shrink_to_fit, allocate, copy", "core/uvector.hpp: uvector, set_element, set_element_to_zero, element, reserve, resize, shrink_to_fit, elements_to_bytes, make_uvector"]}
{"id": "C120", "title": "A path names one file, whichever file system handles it", "statement": "Through the file system of file systems a path names one file: what is saved under it is loaded, found, moved and removed under it, while sub systems are registered, removed and disabled. A request goes to the first registered sub system that handles its path, else to the default one, and never to one that was disabled; one that was disabled is not enabled again. (This fails for relative paths with a home directory, and disabled systems are refused by assertions only.)", "quantifier": "all histories of requests and of changes of the sub systems, all sub systems, paths, contents and directories of the process, with and without assertions", "why_tests_cant": "What a path means depends on the systems registered, removed and disabled before, on homes and on the directory of the process; no test uses it.", "anchors": ["core/file/virtual_file_system.cpp: register_sub_system, unregister_sub_system, list_sub_system, set_disabled_file_systems, find_file_system, open_file, file_exists, remove_file, move_files", "core/file/local_file_system.cpp: open_file, expand_path, set_home_directory, file_exists, remove_file, move_files"]}
{"id": "C121", "title": "Buffers for Arrow keep their bytes", "statement": "After any sequence of reserving, resizing, resizing with a byte to fill, making room for the validity of rows and writing bytes, a buffer for Arrow has the size asked for last and every byte shows what was last put there; rows that are new are valid. Values of one size pushed one after the other lie one after the other. The capacity is a power of two, enough and less than twice the need, and sizes above 2^63 are refused. (Values pushed do not survive a later resize with a byte to fill.)", "quantifier": "all sequences of operations, all sizes of 64 bits, all values of any one size", "why_tests_cant": "The bytes kept depend on the order of growing and shrinking, and the power of two on every bit of the size; tests use a few sizes.", "anchors": ["components/vector/arrow/arrow_buffer.hpp: arrow_buffer_t, reserve, resize, resize_validity, push_back, reserve_internal_"]}

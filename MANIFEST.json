{
 "claims": [
  {
   "property": "C01",
   "status": "proved",
   "theorems": [
    "Verif.Wal.C01_record_round_trip"
   ],
   "note": "every operation, id, predecessor checksum and surrounding bytes; payload below 64 KiB (C03 is the size property)"
  },
  {
   "property": "C02",
   "status": "proved",
   "theorems": [
    "Verif.Wal.C02_replay_exact"
   ],
   "note": "every history of logged operations and restarts, every k"
  },
  {
   "property": "C03",
   "status": "partial",
   "theorems": [
    "Verif.Wal.C03_oversize_hides_log",
    "Verif.Wal.C03_payload_any_size_fails",
    "Verif.Wal.C03_payload_size_partial"
   ],
   "note": "false for payloads of 64 KiB and more (16-bit length field): negation proved; the partial theorem covers encodings up to 65520 bytes"
  },
  {
   "property": "C04",
   "status": "partial",
   "theorems": [
    "Verif.Wal.C04_crash_after_length_is_ub",
    "Verif.Wal.C04_torn_record_delivered",
    "Verif.Wal.C04_crash_any_byte_fails",
    "Verif.Wal.C04_crash_keeps_completed_partial",
    "Verif.Wal.C04_crash_at_boundary_partial"
   ],
   "note": "false: opening after a crash right behind the length field is undefined behaviour, and torn records are delivered as empty entries; partial: completed operations always come first"
  },
  {
   "property": "C05",
   "status": "proved",
   "theorems": [
    "Verif.Wal.C05_ids_consecutive"
   ],
   "note": "every history"
  },
  {
   "property": "C06",
   "status": "proved",
   "theorems": [
    "Verif.Wal.C06_burst_detected",
    "Verif.Wal.C06_changed_bytes_detected"
   ],
   "note": "any change within 32 consecutive bits of the payload (the error class crc32c guarantees), any position, any record"
  },
  {
   "property": "C07",
   "status": "proved",
   "theorems": [
    "Verif.Node.C07_logged",
    "Verif.Node.C07_kept",
    "Verif.Node.C07_dropDb_fails"
   ],
   "note": "For every schedule of client requests, actor steps and crashes, every answered success of an insert, update, delete, create database/collection or drop collection has its record in the log, and the log only grows (C07_logged, C07_kept). C07_dropDb_fails: dropping a database, outside the property's list, is answered without a record."
  },
  {
   "property": "C08",
   "status": "partial",
   "theorems": [
    "Verif.Node.C08_clean_partial",
    "Verif.Node.C08_contents_partial",
    "Verif.Node.C08_repeated_id_keeps_last_fails",
    "Verif.Node.C08_crash_partial",
    "Verif.Node.C08_answered_partial",
    "Verif.Node.C08_recovers_partial",
    "Verif.Node.C08_update_fails",
    "Verif.Node.C08_repeated_id_fails",
    "Verif.Node.C08_batch_fails",
    "Verif.Node.C08_created_fails",
    "Verif.Node.C08_first_database_fails",
    "Verif.Node.C08_twice_fails",
    "Verif.Node.C08_fails"
   ],
   "note": "Proved: a drained restart restores databases, collections and documents; running contents equal what the acknowledged requests make; a crash at any moment under any interleaving of many clients inserting single documents and deleting restores exactly the logged writes, and the load always ends. Missing (proved to fail in the code): updates, batches with repeated ids, batches half written, creation and insert both pending, first database not yet on disk, second crash during the load."
  },
  {
   "property": "C09",
   "status": "partial",
   "theorems": [
    "Verif.Node.C09_answers_partial",
    "Verif.Node.C09_next",
    "Verif.Node.C09_refused",
    "Verif.Node.C09_missing_database_fails",
    "Verif.Node.C09_missing_database_unusable_fails",
    "Verif.Node.C09_concurrent_fails"
   ],
   "note": "Proved for every list of requests of any clients one after the other in which collections are only created in existing databases; refused requests change nothing in any history. Witnesses: creating a collection in a missing database is answered with success; two concurrent creations of one database both succeed."
  },
  {
   "property": "C10",
   "status": "partial",
   "theorems": [
    "Verif.Node.C10_fresh_partial",
    "Verif.Node.C10_dropped_database_fails",
    "Verif.Node.C10_restart_fails"
   ],
   "note": "Proved for every list of requests in which the collection's database is not dropped. Witnesses: after dropping and re-creating the database the new collection shows the old documents; after a restart a dropped database is back."
  },
  {
   "property": "C11",
   "status": "proved",
   "theorems": [
    "Verif.Metadata.C11_catalogue_survives",
    "Verif.Metadata.C11_any_name_fails",
    "Verif.Metadata.C11_crash_fails"
   ],
   "note": "every history of calls and restarts, every walking order of the map; side findings proved: separators in names break the round trip, a crash inside a flush invents databases"
  },
  {
   "property": "C12",
   "status": "partial",
   "theorems": [
    "Verif.BTree.Ids.C12_files_distinct",
    "Verif.BTree.Ids.C12_files_after_load_fails",
    "Verif.BTree.C12_distinct_keys_partial",
    "Verif.BTree.C12_few_keys_partial",
    "Verif.BTree.C12_flush_load_partial",
    "Verif.BTree.C12_few_keys_flush_load_partial",
    "Verif.BTree.C12_insert_twice_fails",
    "Verif.BTree.C12_remove_absent_fails",
    "Verif.BTree.C12_remove_missing_key_fails",
    "Verif.BTree.C12_flush_empty_fails",
    "Verif.BTree.C12_flush_large_fails",
    "Verif.BTree.C12_fails"
   ],
   "note": "false in general (five _fails witnesses: second insertion of an entry at a root split, removal of an absent entry, removal of a missing key leaves a lock, flush of an emptied tree, metadata buffer); proved: every history with one item per key and calls PlainCall, every history with few distinct keys and calls FewKeysCall, each also across flush and load"
  },
  {
   "property": "C13",
   "status": "partial",
   "theorems": [
    "Verif.Block.C13_page_history_partial",
    "Verif.Block.C13_remove_absent_fails",
    "Verif.Block.C13_questions",
    "Verif.Block.C13_inv_reachable",
    "Verif.Block.C13_split",
    "Verif.Block.C13_merge_above_partial",
    "Verif.Block.C13_merge_below_fails",
    "Verif.Block.C13_merge_overlap_fails",
    "Verif.Block.C13_split_append_partial",
    "Verif.Block.C13_split_append_header_fails",
    "Verif.Block.C13_split_append_lower_fails"
   ],
   "note": "Page: histories, questions, split, merge above, split_append for items up to a quarter page; code loses items in split_append, merge below/overlap wrong, removing an absent item miscounts."
  },
  {
   "property": "C14",
   "status": "proved",
   "theorems": [
    "Verif.GapTracker.C14_no_overlap",
    "Verif.GapTracker.C14_live_disjoint",
    "Verif.GapTracker.C14_free_exact",
    "Verif.GapTracker.C14_coalesced",
    "Verif.GapTracker.C14_complete"
   ],
   "note": "Gap allocator model; allocation never overlaps live ranges, free space exact and coalesced."
  },
  {
   "property": "C15",
   "status": "proved",
   "theorems": [
    "Verif.Block.C15_round_trip",
    "Verif.Block.C15_damage_detected"
   ],
   "note": "Byte-level page image. The check is an assertion in the code (segment_tree.cpp:770, 881): with assertions compiled out a damaged page is accepted; the theorem is about varify_checksum/assertions enabled."
  },
  {
   "property": "C16",
   "status": "partial",
   "theorems": [
    "Verif.IndexDisk.C16_queries",
    "Verif.IndexDisk.C16_one_row_per_key_partial",
    "Verif.IndexDisk.C16_few_keys_partial",
    "Verif.IndexDisk.C16_second_row_fails",
    "Verif.IndexDisk.C16_fails"
   ],
   "note": "query translation proved for every stored set of pairs over a tree that answers from it; for histories: one row per key (any number of keys), or any rows with fewer than 128 keys; the full claim is false (second row of a key at a root split is lost, witness)"
  },
  {
   "property": "C17",
   "status": "partial",
   "theorems": [
    "Verif.Query.C17_refused",
    "Verif.Query.C17_others",
    "Verif.Query.C17_stored_partial",
    "Verif.Query.C17_reply_partial",
    "Verif.Query.C17_load",
    "Verif.Query.C17_repeat_fails",
    "Verif.Query.C17_refused_reply_fails",
    "Verif.Query.C17_translate_partial",
    "Verif.Query.C17_translate_fails",
    "Verif.Query.C17_simple_fails"
   ],
   "note": "Insert plan (duplicate check, translation, storage, reply) modelled. Refusal and frame proved for all batches; storing proved for batches without repeated _id. Negations: repeated _id in a batch, containers lost under key translation, a refused insert answered with the whole collection."
  },
  {
   "property": "C18",
   "status": "partial",
   "theorems": [
    "Verif.Query.C18_delete_partial",
    "Verif.Query.C18_exact",
    "Verif.Query.C18_zero_fails",
    "Verif.Query.C18_using_partial",
    "Verif.Query.C18_using_fails"
   ],
   "note": "Delete by filter and delete with another collection modelled. Exactness proved for every filter that gives an answer and every limit that admits something; limit 0 dereferences null; limits with another collection apply to the scans."
  },
  {
   "property": "C19",
   "status": "proved",
   "theorems": [
    "Verif.Query.C19_index",
    "Verif.Query.C19_scan",
    "Verif.Query.C19_transfer",
    "Verif.Query.C19_match",
    "Verif.Query.C19_merge",
    "Verif.Query.C19_firstN"
   ],
   "note": "Limits of full scan, transfer scan, match, and/or/not merges modelled; all answer with the first n of the unlimited answer, for predicates that give an answer and fewer than 2^31 documents."
  },
  {
   "property": "C20",
   "status": "partial",
   "theorems": [
    "Verif.Query.C20_scan_partial",
    "Verif.Query.C20_order",
    "Verif.Query.C20_missing_fails",
    "Verif.Query.C20_key_fails",
    "Verif.Query.C20_null_fails",
    "Verif.Query.C20_big_fails"
   ],
   "note": "Index scan (all six comparisons, limits) modelled over a multimap ordered by logical_value_t. Equality with the full scan proved for fields of one kind with the index in step; negations for missing fields, nulls, 128-bit numbers, a field on the right side."
  },
  {
   "property": "C21",
   "status": "partial",
   "theorems": [
    "Verif.Query.C21_count_partial",
    "Verif.Query.C21_exact_partial",
    "Verif.Query.C21_build_partial",
    "Verif.Query.C21_shared_fails",
    "Verif.Query.C21_build_fails",
    "Verif.Query.C21_null_fails",
    "Verif.Query.C21_repeat_fails"
   ],
   "note": "Index maintenance over every history of insert/delete/update modelled. Number of documents per value proved for all histories over one kind; exact contents when no deleted or updated value is shared. Negations: shared value, null, create index with a missing field, repeated _id."
  },
  {
   "property": "C22",
   "status": "partial",
   "theorems": [
    "Verif.Query.C22_filter_partial",
    "Verif.Query.C22_meaning",
    "Verif.Query.C22_compare",
    "Verif.Query.C22_not_fails",
    "Verif.Query.C22_regex_fails",
    "Verif.Query.C22_missing_fails",
    "Verif.Query.C22_merge_partial",
    "Verif.Query.C22_limit_fails"
   ],
   "note": "check_impl and merges modelled; Boolean combination proved for filters whose leaves give an answer and whose not has one child. Negations: not without child, regex with a right field, missing fields pass >."
  },
  {
   "property": "C23",
   "status": "partial",
   "theorems": [
    "Verif.Query.C23_inner_partial",
    "Verif.Query.C23_left_partial",
    "Verif.Query.C23_right",
    "Verif.Query.C23_full_partial",
    "Verif.Query.C23_documents_partial",
    "Verif.Query.C23_left_fails",
    "Verif.Query.C23_full_empty_fails",
    "Verif.Query.C23_full_names_fails",
    "Verif.Query.C23_container_fails"
   ],
   "note": "Right joins proved in full; inner, cross and left joins and full joins proved for rows of scalar fields and, where stated, without shared names or with a non-empty right side. Witnesses show an unmatched left row loses fields whose names the right side shares, a full join with an empty right side is undefined, full joins name the nulls after the right side, and an object over a scalar is undefined."
  },
  {
   "property": "C24",
   "status": "partial",
   "theorems": [
    "Verif.Query.C24_classes",
    "Verif.Query.C24_partition_partial",
    "Verif.Query.C24_rows_partial",
    "Verif.Query.C24_sign_fails",
    "Verif.Query.C24_double_fails"
   ],
   "note": "Groups are the classes of equal keys, rows carry keys and aggregates over exactly the members, for plain key values (no floating point; one signedness per key). Signed against unsigned and near doubles: shown to fail."
  },
  {
   "property": "C25",
   "status": "partial",
   "theorems": [
    "Verif.Query.C25_sort_partial",
    "Verif.Query.C25_no_keys",
    "Verif.Query.C25_determined_partial",
    "Verif.Query.C25_mixed_fails",
    "Verif.Query.C25_sign_fails"
   ],
   "note": "Proved for keys of one comparable kind per sort key (any number of documents and keys). Mixed kinds and negative against unsigned numbers: shown to fail."
  },
  {
   "property": "C26",
   "status": "partial",
   "theorems": [
    "Verif.Query.C26_count_partial",
    "Verif.Query.C26_sum_signed_partial",
    "Verif.Query.C26_avg_partial",
    "Verif.Query.C26_sum_unsigned_partial",
    "Verif.Query.C26_sum_double_partial",
    "Verif.Query.C26_max_partial",
    "Verif.Query.C26_min",
    "Verif.Query.C26_max_fails",
    "Verif.Query.C26_sum_null_fails",
    "Verif.Query.C26_sum_other_fails",
    "Verif.Query.C26_sum_unsigned_fails",
    "Verif.Query.C26_avg_fails"
   ],
   "note": "count, sum, avg, min and max over documents with numeric fields in range. Missing fields under max, nulls, empty and overlarge sums: shown to fail."
  },
  {
   "property": "C27",
   "status": "partial",
   "theorems": [
    "Verif.PhysKey.C27_width",
    "Verif.PhysKey.C27_irreflexive_asymmetric",
    "Verif.PhysKey.C27_integers_partial",
    "Verif.PhysKey.C27_doubles_partial",
    "Verif.PhysKey.C27_floats_partial",
    "Verif.PhysKey.C27_transitive_partial",
    "Verif.PhysKey.C27_limits",
    "Verif.PhysKey.C27_mixed_fails",
    "Verif.PhysKey.C27_transitive_fails",
    "Verif.PhysKey.C27_nan_fails"
   ],
   "note": "Strict weak order proved for every triple of keys of integer, boolean, string and non-NaN floating point kinds that do not mix 64-bit integers with floating point numbers; the order does not depend on the stored width. Fails (proved) for int64 mixed with double, for float chains and NaN."
  },
  {
   "property": "C28",
   "status": "partial",
   "theorems": [
    "Verif.LogVal.C28_compare_partial",
    "Verif.LogVal.C28_types",
    "Verif.LogVal.C28_sign_fails",
    "Verif.LogVal.C28_boolean_fails",
    "Verif.LogVal.C28_huge_fails",
    "Verif.LogVal.C28_self_fails",
    "Verif.LogVal.C28_epsilon_fails"
   ],
   "note": "compare of two integers is the comparison of the numbers whenever the promoted type holds both; which pairs of types always do is decided exactly (C28_types). Fails (proved): unsigned against signed of no larger width, boolean against signed, 128-bit numbers, time stamps, null and infinities against themselves, epsilon equality is intransitive."
  },
  {
   "property": "C29",
   "status": "proved",
   "theorems": [
    "Verif.Json.C29_escape",
    "Verif.Json.C29_reject",
    "Verif.Json.C29_split",
    "Verif.Json.C29_distinct",
    "Verif.Json.C29_address",
    "Verif.Json.C29_count",
    "Verif.Json.C29_malformed"
   ],
   "note": "Escaping, rejection, splitting, distinctness of paths and the addressed place, for all names, indices below 2^63 and all documents."
  },
  {
   "property": "C30",
   "status": "partial",
   "theorems": [
    "Verif.Json.C30_set",
    "Verif.Json.C30_accepted",
    "Verif.Json.C30_set_reads",
    "Verif.Json.C30_failed",
    "Verif.Json.C30_remove",
    "Verif.Json.C30_value",
    "Verif.Json.C30_index_fails",
    "Verif.Json.C30_move_fails",
    "Verif.Json.C30_wide_fails",
    "Verif.Json.C30_empty_fails"
   ],
   "note": "For every path text: an accepted write or removal changes exactly one place, a refused one nothing; for paths built from steps, acceptance, the place and reading back. Witnesses: an index beyond the end appends elsewhere, an index of 2^32 is taken for 0, a refused move loses the node, the empty path throws. copy/deep copies share nodes and are not modelled."
  },
  {
   "property": "C31",
   "status": "partial",
   "theorems": [
    "Verif.Json.C31_merge_partial",
    "Verif.Json.C31_empty",
    "Verif.Json.C31_object_fails",
    "Verif.Json.C31_marks_fails"
   ],
   "note": "Proved for second documents whose objects lie over objects or nothing and whose deletion marks lie in objects of the first; witnesses show undefined behaviour, respectively a visible mark, otherwise."
  },
  {
   "property": "C32",
   "status": "partial",
   "theorems": [
    "Verif.DocVal.C32_kind_partial",
    "Verif.DocVal.C32_string_fails",
    "Verif.DocVal.C32_sign_fails",
    "Verif.DocVal.C32_double_fails",
    "Verif.DocVal.C32_nan_fails",
    "Verif.DocVal.C32_container_fails"
   ],
   "note": "Fields of one kind (integers all types of which hold the values, 128-bit, float, double, string, boolean), null and missing are a consistent order: values, null, missing. Fails (proved): a string or object is equal to every number, positive unsigned against negative signed throws, 1 against 1.5 depends on the side, NaN is equal to every double."
  },
  {
   "property": "C33",
   "status": "partial",
   "theorems": [
    "Verif.DocPack.C33_same_partial",
    "Verif.DocPack.C33_exact_partial",
    "Verif.DocPack.C33_documents_partial",
    "Verif.DocPack.C33_type_fails",
    "Verif.DocPack.C33_big_fails",
    "Verif.DocPack.C33_large_fails"
   ],
   "note": "Packer and decoder modelled to bytes, for both behaviours of msgpack-c on integral doubles. Same places, names, texts and numbers proved for every document without 128-bit numbers and integers >= 2^56; identity for u64/negative i64/double. The full claim is refuted: a signed non-negative number comes back unsigned (not equal by is_equals_documents), 128-bit numbers are not written, large integers lose their type."
  },
  {
   "property": "C34",
   "status": "partial",
   "theorems": [
    "Verif.Update.C34_operand",
    "Verif.Update.C34_set_partial",
    "Verif.Update.C34_order",
    "Verif.Update.C34_unmodified",
    "Verif.Update.C34_untouched",
    "Verif.Update.C34_each",
    "Verif.Update.C34_arithmetic",
    "Verif.Update.C34_unsigned",
    "Verif.Update.C34_zero_fails",
    "Verif.Update.C34_kind_fails",
    "Verif.Update.C34_refused_fails",
    "Verif.Update.C34_fraction_fails",
    "Verif.Update.C34_null_fails",
    "Verif.Update.C34_nested_fails",
    "Verif.Update.C34_side_fails"
   ],
   "note": "Proved: operands only read, order, no report implies no change, untouched places, documents are independent, exact signed arithmetic; one assignment is proved for an empty place or a value of the same kind. Witnesses: zero, false and empty text are not assigned to missing fields or fields of another kind, 3 is not assigned over 3.5, null is ignored, refused assignments count as changes, nested assignments do not, a deduced side is kept for later documents."
  },
  {
   "property": "C35",
   "status": "partial",
   "theorems": [
    "Verif.Trie.C35_insert",
    "Verif.Trie.C35_erase_others",
    "Verif.Trie.C35_erase_last",
    "Verif.Trie.C35_erase_versions",
    "Verif.Trie.C35_iteration",
    "Verif.Trie.C35_older_version_fails",
    "Verif.Trie.C35_map_partial",
    "Verif.Trie.C35_freed_node_fails",
    "Verif.Trie.C35_create_partial",
    "Verif.Trie.C35_create_fails",
    "Verif.Trie.C35_namespaces",
    "Verif.Trie.C35_children",
    "Verif.Trie.C35_children_fails",
    "Verif.Trie.C35_has_child_fails"
   ],
   "note": "Trie modelled with its versions, references and iteration. For every history: insertion found, other paths unchanged by insert and erase, last version erased means absent, iteration is the sorted list of what is found. Partial: histories that insert only into absent paths are an exact map. Fails: erasing one of two versions of a leaf drops both; an insert beside a node without versions throws; children list shows dropped namespaces; erase of a leaf leaves iterators on a freed node."
  },
  {
   "property": "C36",
   "status": "partial",
   "theorems": [
    "Verif.CompSchema.C36_versions_partial",
    "Verif.CompSchema.C36_latest_partial",
    "Verif.CompSchema.C36_latest_fails",
    "Verif.CompSchema.C36_append_throws_fails",
    "Verif.CompSchema.C36_prefix_fails",
    "Verif.CompSchema.C36_fails"
   ],
   "note": "Exact for names that keep their distance (no name extends another one minus its last letter). Fails: latest_types_struct hides a field whose newest type is gone; append throws for fields such as abc and b; a field whose name begins another one stays listed."
  },
  {
   "property": "C37",
   "status": "partial",
   "theorems": [
    "Verif.SchemaTxn.C37_only_commit",
    "Verif.SchemaTxn.C37_exclusive",
    "Verif.SchemaTxn.C37_once",
    "Verif.SchemaTxn.C37_savepoint_partial",
    "Verif.SchemaTxn.C37_savepoint_fails",
    "Verif.SchemaTxn.C37_two_columns_fails",
    "Verif.SchemaTxn.C37_type_twice_fails",
    "Verif.SchemaTxn.C37_type_name_fails",
    "Verif.SchemaTxn.C37_rename_fails",
    "Verif.SchemaTxn.C37_rename_delete_fails",
    "Verif.SchemaTxn.C37_add_delete_fails",
    "Verif.SchemaTxn.C37_retry_fails",
    "Verif.SchemaTxn.C37_apply_partial"
   ],
   "note": "Proved for every history: only a commit of a scope that is neither done nor in error changes the table, to exactly the recorded changes applied, and never again after it; rollback restores the recorded changes (first savepoint of its name); for changes of different columns the commit yields what the changes give one after the other and a valid schema. The full claims fail in the code: a reused savepoint keeps the old state, two added columns share id 0, a type changed twice dereferences null, an extended type takes the column's name away, later changes to a renamed or added column are lost, a commit retried after an exception applies nothing."
  },
  {
   "property": "C38",
   "status": "partial",
   "theorems": [
    "Verif.Mvcc.C38_fetch",
    "Verif.Mvcc.C38_scan",
    "Verif.Mvcc.C38_outcomes",
    "Verif.Mvcc.C38_cleanup_fails",
    "Verif.Mvcc.C38_cleanup_partial",
    "Verif.Mvcc.C38_cleanup_boundary_fails"
   ],
   "note": "every legal history of append/commit/delete/commit-delete/cleanup/revert by any number of transactions: row fetch, vector scan and reported outcomes equal the specification; without the side condition on row 0 of a cleaned vector the claim is false (loop starts at 1), proved"
  },
  {
   "property": "C39",
   "status": "proved",
   "theorems": [
    "Verif.Mvcc.C39_second_delete_refused",
    "Verif.Mvcc.C39_reported_once",
    "Verif.Mvcc.C39_refused_changes_nothing_fails",
    "Verif.Mvcc.C39_stale_mark_fails"
   ],
   "note": "every interleaving: second delete refused, each row reported at most once; side findings proved: a refused delete leaves earlier rows marked, undoing an append mid-vector leaves stale marks"
  },
  {
   "property": "C40",
   "status": "partial",
   "theorems": [
    "Verif.Validity.C40_slice_shares_rows_fails",
    "Verif.Validity.C40_slice_independent_partial",
    "Verif.Validity.C40_row_is_valid",
    "Verif.Validity.C40_set",
    "Verif.Validity.C40_set_invalid",
    "Verif.Validity.C40_set_valid_nulls_row_one",
    "Verif.Validity.C40_set_valid_fails",
    "Verif.Validity.C40_set_all_invalid_null_pointer",
    "Verif.Validity.C40_set_all_invalid_fails",
    "Verif.Validity.C40_set_all_invalid_revives_row",
    "Verif.Validity.C40_set_all_invalid_partial",
    "Verif.Validity.C40_count_valid_fails",
    "Verif.Validity.C40_count_valid_partial",
    "Verif.Validity.C40_slice_from_all_valid_is_ub",
    "Verif.Validity.C40_slice_in_place_fails",
    "Verif.Validity.C40_slice_in_place_partial",
    "Verif.Validity.C40_slice",
    "Verif.Validity.C40_copy_indexing",
    "Verif.Validity.C40_copy_plain",
    "Verif.Validity.C40_copy",
    "Verif.Validity.C40_combine_fails",
    "Verif.Validity.C40_combine_partial",
    "Verif.Validity.C40_resize_partial",
    "Verif.Validity.C40_resize_fails",
    "Verif.Validity.C40_resize_counterexample_reachable"
   ],
   "note": "row_is_valid, set, set_invalid, copy exact; set_valid, set_all_invalid, count_valid, slice_in_place, combine, resize and slice sharing have proved counterexamples, with partial theorems for the cases that work"
  },
  {
   "property": "C41",
   "status": "partial",
   "theorems": [
    "Verif.SegLookup.C41_row_before_first_is_ub",
    "Verif.SegLookup.C41_lookup_fails",
    "Verif.SegLookup.C41_lookup_partial",
    "Verif.SegLookup.C41_lookup_from_zero",
    "Verif.SegLookup.C41_segment_unique",
    "Verif.SegLookup.C41_get_segment",
    "Verif.SegLookup.C41_append_ordered",
    "Verif.SegLookup.C41_erase_ordered",
    "Verif.SegLookup.C41_reinitialize_ordered"
   ],
   "note": "exact for rows at or after the first segment's start (always so when the first segment starts at 0); a row before it underflows and reads out of bounds (negation proved)"
  },
  {
   "property": "C42",
   "status": "partial",
   "theorems": [
    "Verif.TableId.C42_empty_text_is_ub_fails",
    "Verif.TableId.C42_parse_print_fails",
    "Verif.TableId.C42_parse_print_partial",
    "Verif.TableId.C42_print_parse_partial",
    "Verif.TableId.C42_names_differ_partial",
    "Verif.TableId.C42_names_differ_fails",
    "Verif.TableId.C42_full_name_fails",
    "Verif.TableId.C42_full_name_swaps",
    "Verif.TableId.C42_full_name_partial"
   ],
   "note": "exact for qualified names whose parts contain no dot; negations proved: unqualified names gain a dot, empty text is UB, dotted/empty namespaces collide, database and schema are swapped by the conversion"
  },
  {
   "property": "C43",
   "status": "proved",
   "theorems": [
    "Verif.Spinlock.C43_mutual_exclusion",
    "Verif.Spinlock.C43_lock_available",
    "Verif.Spinlock.C43_no_entry_while_held",
    "Verif.Spinlock.C43_upgrade_not_atomic",
    "Verif.Spinlock.C43_spin_lock_exclusive"
   ],
   "note": "every number of threads and every schedule of the atomic steps"
  },
  {
   "property": "C44",
   "status": "partial",
   "theorems": [
    "Verif.PlanPack.C44_alike_partial",
    "Verif.PlanPack.C44_exact_partial",
    "Verif.PlanPack.C44_operand_fails",
    "Verif.PlanPack.C44_place_fails",
    "Verif.PlanPack.C44_source_fails",
    "Verif.PlanPack.C44_columns_fails",
    "Verif.PlanPack.C44_condition_fails",
    "Verif.PlanPack.C44_schema_fails",
    "Verif.PlanPack.C44_unary_fails",
    "Verif.PlanPack.C44_unwritten_fails",
    "Verif.PlanPack.C44_number_fails"
   ],
   "note": "Full claim C44_claim is false (C44_*_fails: parameter operands become keys, negative places, delete-using source, table columns, join condition, schema, unary update UB, filter without expression UB, column chunk throws, signed inserted numbers). Proved: C44_exact_partial (identity when numbers are of kept types and none of the lost parts is used) and C44_alike_partial (same plan, documents and parameters equal up to the signedness of non-negative integers)."
  },
  {
   "property": "C45",
   "status": "partial",
   "theorems": [
    "Verif.File.C45_short_read_fails",
    "Verif.File.C45_short_write_fails",
    "Verif.File.C45_read_exact_partial",
    "Verif.File.C45_read_past_end",
    "Verif.File.C45_read_success_fills",
    "Verif.File.C45_write_exact_partial",
    "Verif.File.C45_sequential_write"
   ],
   "note": "false for transfers split by the operating system and for reads crossing the end of the file; exact when the range is available in one call; sequential writes exact under every schedule"
  },
  {
   "property": "C46",
   "status": "partial",
   "theorems": [
    "Verif.TableId.C46_order_fails",
    "Verif.TableId.C46_order_partial"
   ],
   "note": "false with different unique identifiers (negation proved); strict total order among names with the same unique identifier"
  },
  {
   "property": "C47",
   "status": "partial",
   "theorems": [
    "Verif.LogVal.C47_exact_partial",
    "Verif.LogVal.C47_small",
    "Verif.LogVal.C47_overflow_fails",
    "Verif.LogVal.C47_mixed_fails"
   ],
   "note": "Exact whenever representable and the divisor is not zero; types up to 16 bits never overflow (except u16*u16). Overflow, zero/absent divisors UB, mixed types throw. Floating point and 128-bit arithmetic are not modelled."
  },
  {
   "property": "C48",
   "status": "partial",
   "theorems": [
    "Verif.DocVal.C48_roundtrip_partial",
    "Verif.DocVal.C48_unsigned_fails",
    "Verif.DocVal.C48_uninitialised_fails"
   ],
   "note": "Round trip for every sequence of values whose words leave the type byte alone; fails for uint64 from 2^56 on and for uninitialised bytes above small signed numbers and floats."
  },
  {
   "property": "C49",
   "status": "partial",
   "theorems": [
    "Verif.DocVal.C49_types",
    "Verif.DocVal.C49_fits_partial",
    "Verif.DocVal.C49_wrap_fails",
    "Verif.DocVal.C49_double_fails",
    "Verif.DocVal.C49_float_partial"
   ],
   "note": "The pairs of integer types for which reading is right are decided exactly (C49_types); a number that fits is always read; doubles in range are truncated. Reading 300 as uint8 gives 44, -1 as uint64 gives 2^64-1, NaN and large doubles are undefined."
  },
  {
   "property": "C50",
   "status": "partial",
   "theorems": [
    "Verif.Wrapper.C50_own_answer_partial",
    "Verif.Wrapper.C50_fails",
    "Verif.Wrapper.C50_size_fails"
   ],
   "note": "Proved for every number of threads and schedule in which answers of one kind arrive one at a time and no call takes over an answered session. The full claim is refuted: two concurrent calls swap answers, the second gets a null pointer; two sizes get the same answer."
  },
  {
   "property": "C51",
   "status": "partial",
   "theorems": [
    "Verif.Wrapper.C51_returns_partial",
    "Verif.Wrapper.C51_load_fails",
    "Verif.Wrapper.C51_session_fails"
   ],
   "note": "Proved for every schedule without load() in which no call takes over an answered session. Refuted in general: lost wake-up of load(), and a second call with the same session resets the arrived flag."
  },
  {
   "property": "C52",
   "status": "partial",
   "theorems": [
    "Verif.Session.C52_one_after_the_other_partial",
    "Verif.Session.C52_fails"
   ],
   "note": "Proved: sessions whose makings do not overlap are different, for every schedule and clock. Refuted for overlapping makings."
  },
  {
   "property": "C53",
   "status": "partial",
   "theorems": [
    "Verif.Cursor.C53_walk",
    "Verif.Cursor.C53_loop",
    "Verif.Cursor.C53_rows_fails"
   ],
   "note": "Proved for answers of documents, for every list of calls (below 2^31 calls of next), and for the usual loop. Answers of tables: refuted (next throws)."
  },
  {
   "property": "C54",
   "status": "partial",
   "theorems": [
    "Verif.Sql.C54_where_partial",
    "Verif.Sql.C54_nulls_partial",
    "Verif.Sql.C54_reversed_fails",
    "Verif.Sql.C54_not_not_fails",
    "Verif.Sql.C54_missing_fails",
    "Verif.Sql.C54_null_fails",
    "Verif.Sql.C54_expression_fails",
    "Verif.Sql.C54_like_fails",
    "Verif.Sql.C54_numeral_fails",
    "Verif.Sql.C54_decimal_fails",
    "Verif.Sql.C54_function_fails",
    "Verif.Sql.C54_constants_fails"
   ],
   "note": "SQL WHERE: conditions of column-first comparisons with fields and constants of the same kind, AND/OR/single NOT (C54_where_partial); positive conditions also when fields are missing (C54_nulls_partial). Missing: the deviations proved as _fails."
  },
  {
   "property": "C55",
   "status": "partial",
   "theorems": [
    "Verif.Sql.C55_order_partial",
    "Verif.Sql.C55_columns_partial",
    "Verif.Sql.C55_group_partial",
    "Verif.Sql.C55_duplicates_fails",
    "Verif.Sql.C55_missing_fails",
    "Verif.Sql.C55_limit_fails",
    "Verif.Sql.C55_group_by_fails",
    "Verif.Sql.C55_count_fails",
    "Verif.Sql.C55_target_fails",
    "Verif.Sql.C55_qualified_fails",
    "Verif.Sql.C55_order_hidden_fails"
   ],
   "note": "SELECT *, ORDER BY, columns as the distinct rows of documents that have them, aggregates without GROUP BY over a non-empty selection. Missing: the deviations proved as _fails."
  },
  {
   "property": "C56",
   "status": "partial",
   "theorems": [
    "Verif.Sql.C56_join_partial",
    "Verif.Sql.C56_reversed_fails",
    "Verif.Sql.C56_constant_fails"
   ],
   "note": "Inner and right join with the left table's column first. Missing: reversed sides, constants on the right table."
  },
  {
   "property": "C57",
   "status": "partial",
   "theorems": [
    "Verif.Sql.C57_delete_partial",
    "Verif.Sql.C57_using_partial",
    "Verif.Sql.C57_using_fails",
    "Verif.Sql.C57_reversed_fails",
    "Verif.Sql.C57_missing_fails"
   ],
   "note": "DELETE with plain or positive conditions, DELETE USING with sided conditions. Missing: USING without WHERE, deviations of C54."
  },
  {
   "property": "C58",
   "status": "partial",
   "theorems": [
    "Verif.Sql.C58_update_partial",
    "Verif.Sql.C58_swap_fails",
    "Verif.Sql.C58_concat_fails",
    "Verif.Sql.C58_compare_fails",
    "Verif.Sql.C58_negate_fails",
    "Verif.Sql.C58_absent_fails",
    "Verif.Sql.C58_claim_fails",
    "Verif.Sql.C58_null_fails",
    "Verif.Sql.C58_missing_fails"
   ],
   "note": "UPDATE without FROM: proved for arithmetic of columns and constants, independent assignments to present columns of the same kind; the disagreements are proved as _fails."
  },
  {
   "property": "C59",
   "status": "partial",
   "theorems": [
    "Verif.Sql.C59_insert_partial",
    "Verif.Sql.C59_noid_fails",
    "Verif.Sql.C59_claim_fails",
    "Verif.Sql.C59_text_fails",
    "Verif.Sql.C59_null_fails",
    "Verif.Sql.C59_count_fails",
    "Verif.Sql.C59_decimal_fails"
   ],
   "note": "INSERT ... VALUES: proved for rows of booleans, texts, integers with new, different 24-digit _ids; the disagreements are proved as _fails."
  },
  {
   "property": "C60",
   "status": "partial",
   "theorems": [
    "Verif.Oid.C60_text",
    "Verif.Oid.C60_parse",
    "Verif.Oid.C60_order",
    "Verif.Oid.C60_timestamp",
    "Verif.Oid.C60_unique_partial",
    "Verif.Oid.C60_wrap_fails",
    "Verif.Oid.C60_process_fails"
   ],
   "note": "Parsing, printing, order and timestamps are proved in full; uniqueness of generated identifiers within 2^24 of one process."
  },
  {
   "property": "C61",
   "status": "proved",
   "theorems": [
    "Verif.Table.C61_scan_returns_all",
    "Verif.Table.C61_append_returns"
   ],
   "note": "Fixed-size columns; calls run one after another; row numbers below 2^62."
  },
  {
   "property": "C62",
   "status": "proved",
   "theorems": [
    "Verif.Table.C62_delete",
    "Verif.Table.C62_delete_returns",
    "Verif.Table.C62_unknown_row_throws",
    "Verif.Table.C62_repeated_ids_are_ub"
   ],
   "note": "Proved for distinct ids; C62_repeated_ids_are_ub shows what repeated ids do. The state after a throw is not modelled."
  },
  {
   "property": "C63",
   "status": "partial",
   "theorems": [
    "Verif.Table.C63_update",
    "Verif.Table.C63_update_returns_partial",
    "Verif.Table.C63_update_behind_is_ub",
    "Verif.Table.C63_update_returns_fails"
   ],
   "note": "C63_update says what a returning update did (full). That it returns is false (C63_update_returns_fails, C63_update_behind_is_ub); C63_update_returns_partial gives ascending ids with the condition under which it does."
  },
  {
   "property": "C64",
   "status": "partial",
   "theorems": [
    "Verif.Table.C64_filter_partial",
    "Verif.Table.C64_filter_null_fails",
    "Verif.Table.C64_filter_after_update_fails",
    "Verif.Table.C64_filter_second_group_is_ub"
   ],
   "note": "False for NULLs, updated rows, and beyond the first row group (witnesses); C64_filter_partial covers tables up to 1024 rows, never updated, non-NULL filter columns."
  },
  {
   "property": "C65",
   "status": "partial",
   "theorems": [
    "Verif.Table.C65_fetch",
    "Verif.Table.C65_fetch_live_partial",
    "Verif.Table.C65_fetch_live_fails"
   ],
   "note": "C65_fetch is exact; the claim restricted to live rows is false since deleted rows are returned; partial for ids not deleted."
  },
  {
   "property": "C66",
   "status": "proved",
   "theorems": [
    "Verif.Table.C66_size"
   ],
   "note": "data_table_t, whose row groups have 1024 rows."
  },
  {
   "property": "C67",
   "status": "partial",
   "theorems": [
    "Verif.Table.Reuse.C67_scan_overwrites",
    "Verif.Table.Reuse.C67_rows_lost_fails",
    "Verif.Table.Reuse.C67_scan_keeps_fails",
    "Verif.Table.Reuse.C67_scan_keeps_partial",
    "Verif.Table.Reuse.C67_new_chunks_keep"
   ],
   "note": "Holds for tables of one row group and for new chunks; refuted for two row groups; exactly what is overwritten is proved."
  },
  {
   "property": "C68",
   "status": "partial",
   "theorems": [
    "Verif.Table.C68_select_all_first_block",
    "Verif.Table.C68_select_all_partial",
    "Verif.Table.C68_select_where_partial",
    "Verif.Table.C68_select_fails"
   ],
   "note": "Without a condition what is returned is proved for all tables; the claim for up to 1024 rows; refuted for 1025."
  },
  {
   "property": "C69",
   "status": "partial",
   "theorems": [
    "Verif.Table.C69_delete_where_partial",
    "Verif.Table.C69_delete_all_partial",
    "Verif.Table.C69_delete_all_fails",
    "Verif.Table.C69_delete_all_leaves_rows_fails"
   ],
   "note": "Proved with a condition (up to 1024 rows, no NULLs or updates) and without one if a row was deleted before; refuted otherwise."
  },
  {
   "property": "C70",
   "status": "partial",
   "theorems": [
    "Verif.ChunkOp.C70_match_zeros",
    "Verif.ChunkOp.C70_match_partial",
    "Verif.ChunkOp.C70_match_too_many",
    "Verif.ChunkOp.C70_null_fails",
    "Verif.ChunkOp.C70_all_true_fails",
    "Verif.ChunkOp.C70_fraction_fails",
    "Verif.ChunkOp.C70_negative_fails",
    "Verif.ChunkOp.C70_columns_fails"
   ],
   "note": "Proved for rows without NULL, at most 1024 results and parameters of the kind of the column, and with NULLs read as zeros (C70_match_zeros); the full statement is false: NULLs, all_true, 1025 rows, fractions, negative parameters, comparisons of two columns."
  },
  {
   "property": "C71",
   "status": "partial",
   "theorems": [
    "Verif.ChunkOp.C71_inner_zeros",
    "Verif.ChunkOp.C71_inner_partial",
    "Verif.ChunkOp.C71_too_many",
    "Verif.ChunkOp.C71_outer_empty_fails",
    "Verif.ChunkOp.C71_null_fails",
    "Verif.ChunkOp.C71_type_fails"
   ],
   "note": "Proved for inner joins of rows without NULL with at most 1024 pairs, and with NULLs read as zeros; false: other joins return nothing, NULL = NULL, parameters of another integer type."
  },
  {
   "property": "C72",
   "status": "partial",
   "theorems": [
    "Verif.ChunkOp.C72_sort_unlawful",
    "Verif.ChunkOp.C72_sort_partial",
    "Verif.ChunkOp.C72_reversed",
    "Verif.ChunkOp.C72_sort_fails"
   ],
   "note": "Holds for an empty table only; false in general: the comparison is not irreflexive, so the outcome is any (C72_sort_unlawful), and it is reversed (C72_reversed)."
  },
  {
   "property": "C73",
   "status": "partial",
   "theorems": [
    "Verif.ChunkOp.C73_group_zeros",
    "Verif.ChunkOp.C73_group_partial",
    "Verif.ChunkOp.C73_empty_fails",
    "Verif.ChunkOp.C73_null_fails",
    "Verif.ChunkOp.C73_kinds_fails",
    "Verif.ChunkOp.C73_key_name_fails",
    "Verif.ChunkOp.C73_narrow_fails",
    "Verif.ChunkOp.C73_alias_fails"
   ],
   "note": "Proved for rows without NULL, distinct kinds of aggregates, 32/64-bit sums that fit; false: NULLs, empty table, two aggregates of one kind, narrow sums, AS names."
  },
  {
   "property": "C74",
   "status": "partial",
   "theorems": [
    "Verif.Table.C74_index_partial",
    "Verif.Table.C74_load_returns",
    "Verif.Table.C74_delete_partial",
    "Verif.Table.C74_second_insert_is_ub",
    "Verif.Table.C74_new_index_finds_nothing",
    "Verif.Table.C74_late_index_fails",
    "Verif.Table.C74_shared_key_fails"
   ],
   "note": "Proved for every table whose index was created before its first row, loaded by one INSERT and then reduced by deletes through the index, with and without LIMIT (C74_index_partial, C74_delete_partial, C74_load_returns). False otherwise: C74_second_insert_is_ub and C74_new_index_finds_nothing hold for every table, C74_late_index_fails and C74_shared_key_fails refute the full claim."
  },
  {
   "property": "C75",
   "status": "partial",
   "theorems": [
    "Verif.Ddl.C75_create_partial",
    "Verif.Ddl.C75_decimal_width_fails",
    "Verif.Ddl.C75_decimal_scale_fails",
    "Verif.Ddl.C75_matrix_fails",
    "Verif.Ddl.C75_unsized_fails",
    "Verif.Ddl.C75_bit_length_fails",
    "Verif.Ddl.C75_unknown_array_fails",
    "Verif.Ddl.C75_qualifier_fails",
    "Verif.Ddl.C75_quoted_numeric_fails",
    "Verif.Ddl.C75_type_is_ub",
    "Verif.Ddl.C75_table_constraint_is_ub",
    "Verif.Ddl.C75_constraints_are_dropped",
    "Verif.Ddl.C75_distinct_fails",
    "Verif.Ddl.C75_documents"
   ],
   "note": "Partial: holds when every type is read as it is meant (at most one pair of brackets with a size, DECIMAL(w,s) with 0<=s<=w<=255, no lengths or foreign qualifiers). The full claim is refuted with nine kinds of declarations; table constraints are undefined behaviour, column constraints are dropped."
  },
  {
   "property": "C76",
   "status": "partial",
   "theorems": [
    "Verif.Ddl.C76_drop_partial",
    "Verif.Ddl.C76_drop_list_fails",
    "Verif.Ddl.C76_create_partial",
    "Verif.Ddl.C76_long_name_fails",
    "Verif.Ddl.C76_names_distinct",
    "Verif.Ddl.C76_index_names",
    "Verif.Ddl.C76_index_made",
    "Verif.Ddl.C76_index_expression_is_ub",
    "Verif.Ddl.C76_unique_is_dropped"
   ],
   "note": "Partial: one name per DROP, names of up to four parts. DROP TABLE a, b and names with five parts are proved counterexamples."
  },
  {
   "property": "C77",
   "status": "partial",
   "theorems": [
    "Verif.DiskIdx.C77_safe_partial",
    "Verif.DiskIdx.C77_query_partial",
    "Verif.DiskIdx.C77_delete_partial",
    "Verif.DiskIdx.C77_documents_partial",
    "Verif.DiskIdx.C77_answered_partial",
    "Verif.DiskIdx.C77_late_index_fails",
    "Verif.DiskIdx.C77_fails",
    "Verif.DiskIdx.C77_delete_after_query_is_ub",
    "Verif.DiskIdx.C77_overlap_is_ub",
    "Verif.DiskIdx.C77_same_session_is_ub"
   ],
   "note": "Proved for all schedules in which sessions are new, inserted ids are new, a DELETE through the index does not overlap other scans through it, and other DELETEs touch no document with the field once the index was used. Outside these the code fails or is undefined: see the _fails and _is_ub theorems. One index on one field, comparison a linear order; the tree on disk enters as the set of its pairs (C16)."
  },
  {
   "property": "C78",
   "status": "partial",
   "theorems": [
    "Verif.DiskIdx.C78_restart_partial",
    "Verif.DiskIdx.C78_deleted_comes_back_fails",
    "Verif.DiskIdx.C78_index_disagrees_fails",
    "Verif.DiskIdx.C78_restart_is_ub"
   ],
   "note": "Proved where no DELETE goes through the index and every document has the field; the rest fails, see the theorems."
  },
  {
   "property": "C79",
   "status": "partial",
   "theorems": [
    "Verif.IdxReg.C79_indexes_partial",
    "Verif.IdxReg.C79_file_partial",
    "Verif.IdxReg.C79_refused_index_is_used_fails",
    "Verif.IdxReg.C79_create_after_refusal_is_ub",
    "Verif.IdxReg.C79_create_twice_is_ub",
    "Verif.IdxReg.C79_same_field_fails",
    "Verif.IdxReg.C79_drop_collection_is_ub",
    "Verif.IdxReg.C79_drop_emptied_collection_is_ub",
    "Verif.IdxReg.C79_other_database_fails",
    "Verif.IdxReg.C79_other_database_is_ub",
    "Verif.IdxReg.C79_crash_fails",
    "Verif.IdxReg.C79_file_grows",
    "Verif.IdxReg.C79_fails"
   ],
   "note": "Proved for calls that touch each index name and field once per collection and never drop a collection that still has indexes on disk (Legal and Calm in Spec); the full claim is refuted: witnesses show a refused index being used, undefined behaviour after a refusal or second creation, a mix-up between databases, and an index that comes back or is lost after a crash."
  },
  {
   "property": "C80",
   "status": "partial",
   "theorems": [
    "Verif.VecVal.C80_written_is_read_partial",
    "Verif.VecVal.C80_timestamp_fails",
    "Verif.VecVal.C80_decimal_is_ub",
    "Verif.VecVal.C80_array_in_list_is_ub",
    "Verif.VecVal.C80_fails"
   ],
   "note": "Proved for all types made of numbers, booleans, strings, lists, arrays and structs without an array within a list. TIMESTAMP, DECIMAL and lists of arrays fail, with witnesses."
  },
  {
   "property": "C81",
   "status": "proved",
   "theorems": [
    "Verif.VecVal.C81_slices_read"
   ],
   "note": "Proved for all types, contents and chains of slices."
  },
  {
   "property": "C82",
   "status": "partial",
   "theorems": [
    "Verif.VecVal.C82_rows_partial",
    "Verif.VecVal.C82_cut_rows_partial",
    "Verif.VecVal.C82_array_append_fails",
    "Verif.VecVal.C82_array_grow_is_ub",
    "Verif.VecVal.C82_fails",
    "Verif.VecVal.C82_reset_is_ub",
    "Verif.VecVal.C82_empty_chunk_fails"
   ],
   "note": "Proved for columns without arrays; witnesses show that arrays lose elements, and that growth of array columns and rows added after reset are undefined."
  },
  {
   "property": "C83",
   "status": "partial",
   "theorems": [
    "Verif.VecVal.C83_write_slice_partial",
    "Verif.VecVal.C83_null_fails",
    "Verif.VecVal.C83_not_null_fails",
    "Verif.VecVal.C83_struct_fails",
    "Verif.VecVal.C83_fails"
   ],
   "note": "Proved for types that are no structs, when neither the old nor the new value is NULL; witnesses for the other cases."
  },
  {
   "property": "C84",
   "status": "partial",
   "theorems": [
    "Verif.Share.C84_answers_silent_partial",
    "Verif.Share.C84_answers_other_partial",
    "Verif.Share.C84_update_fails",
    "Verif.Share.C84_client_fails"
   ],
   "note": "Every history before, every continuation without UPDATE and without clients writing documents (silent); for clients that give each document away once, also UPDATE of other collections. UPDATE of the same collection changes earlier answers (C84_update_fails)."
  },
  {
   "property": "C85",
   "status": "partial",
   "theorems": [
    "Verif.Share.C85_quiet_partial",
    "Verif.Share.C85_careful_partial",
    "Verif.Share.C85_select_star_fails",
    "Verif.Share.C85_two_collections_fails",
    "Verif.Share.C85_client_fails"
   ],
   "note": "Histories without UPDATE: everything readable is as if INSERT and SELECT copied, SELECT * included. With UPDATE: for clients that give each document away once and do not use INSERT ... SELECT *. Negations: C85_select_star_fails, C85_two_collections_fails, C85_client_fails."
  },
  {
   "property": "C86",
   "status": "partial",
   "theorems": [
    "Verif.Sql.C86_columns_partial",
    "Verif.Sql.C86_star_partial",
    "Verif.Sql.C86_count",
    "Verif.Sql.C86_noid_fails",
    "Verif.Sql.C86_claim_fails",
    "Verif.Sql.C86_missing_fails",
    "Verif.Sql.C86_name_fails",
    "Verif.Sql.C86_star_fails",
    "Verif.Sql.C86_function_fails"
   ],
   "note": "Proved for SELECT of columns including _id that all selected documents have, and for SELECT *; the full claim fails (C86_*_fails): null ids, dropped rows, ignored names, uncounted functions."
  },
  {
   "property": "C87",
   "status": "partial",
   "theorems": [
    "Verif.Sql.C87_update_partial",
    "Verif.Sql.C87_chain_fails",
    "Verif.Sql.C87_twice_fails",
    "Verif.Sql.C87_claim_fails",
    "Verif.Sql.C87_unqualified_fails"
   ],
   "note": "Proved when no document has two partners and no compared column is assigned to; expressions are integer arithmetic on qualified columns and constants. C87_chain_fails, C87_twice_fails: the full claim is false."
  },
  {
   "property": "C88",
   "status": "partial",
   "theorems": [
    "Verif.CApi.C88_calls_partial",
    "Verif.CApi.C88_unique",
    "Verif.CApi.C88_absent_fails",
    "Verif.CApi.C88_rows_fails",
    "Verif.CApi.C88_unsigned_fails"
   ],
   "note": "C88_calls_partial: every program whose calls are safe (answers of documents, no question about an absent document, short texts). C88_absent_fails, C88_rows_fails, C88_unsigned_fails are the code's violations."
  },
  {
   "property": "C89",
   "status": "partial",
   "theorems": [
    "Verif.CApi.C89_text_partial",
    "Verif.CApi.C89_text_fails",
    "Verif.CApi.C89_claim_fails"
   ],
   "note": "C89_text_partial for short texts without zero bytes; C89_text_fails: every longer text overflows, every text with a zero byte is cut."
  },
  {
   "property": "C90",
   "status": "partial",
   "theorems": [
    "Verif.TextSeg.C90_texts_partial",
    "Verif.TextSeg.C90_unique",
    "Verif.TextSeg.C90_claim_fails",
    "Verif.TextSeg.C90_room",
    "Verif.TextSeg.C90_columns"
   ],
   "note": "Byte-level model of a text segment; appends and reads proved for every list of batches; texts of 4096 bytes and more cannot be read (proved), hence partial; C90_room and C90_columns carry the result to the table model."
  },
  {
   "property": "C91",
   "status": "partial",
   "theorems": [
    "Verif.Py.C91_roundtrip_partial",
    "Verif.Py.C91_read",
    "Verif.Py.C91_inserted_partial",
    "Verif.Py.C91_none_fails",
    "Verif.Py.C91_int_fails"
   ],
   "note": "Round trip for all dicts without None and integers beyond 64 bits; both exceptions proved as failures."
  },
  {
   "property": "C92",
   "status": "partial",
   "theorems": [
    "Verif.Py.C92_accepts_partial",
    "Verif.Py.C92_find_partial",
    "Verif.Py.C92_name_fails",
    "Verif.Py.C92_or_fails",
    "Verif.Py.C92_alternative_fails",
    "Verif.Py.C92_not_fails",
    "Verif.Py.C92_none_fails",
    "Verif.Py.C92_in_fails"
   ],
   "note": "Proved for ordinary names, one-entry alternatives and negations, $or alone at the root; each restriction is shown necessary by a _fails theorem."
  },
  {
   "property": "C93",
   "status": "partial",
   "theorems": [
    "Verif.Py.C93_update_many_partial",
    "Verif.Py.C93_update_one_partial",
    "Verif.Py.C93_zero_fails",
    "Verif.Py.C93_nested_is_ub",
    "Verif.Py.C93_unset_fails",
    "Verif.Py.C93_upsert_fails"
   ],
   "note": "update_many/update_one with $set and $inc proved for values of the kind of the old ones (and non-zero where the field is missing), plain names, distinct ids; fails for zero on missing fields, nested values (UB), other operators, upserted documents."
  },
  {
   "property": "C94",
   "status": "partial",
   "theorems": [
    "Verif.Buf.C94_buffers_partial",
    "Verif.Buf.C94_thrown_away_fails",
    "Verif.Buf.C94_roomy_partial",
    "Verif.Buf.C94_resize_partial",
    "Verif.Buf.C94_resize_fails"
   ],
   "note": "Buffer manager, simulation of an ideal memory for every history (C94_buffers_partial); the full claim holds while memory is not short (C94_roomy_partial); refuted for blocks that must not be destroyed (C94_thrown_away_fails) and for resizing (C94_resize_fails)."
  },
  {
   "property": "C95",
   "status": "partial",
   "theorems": [
    "Verif.Text.C95_text_partial",
    "Verif.Text.C95_quote_fails",
    "Verif.Text.C95_backslash_fails",
    "Verif.Text.C95_control_fails",
    "Verif.Text.C95_hugeint_fails",
    "Verif.Text.C95_int64_is_ub",
    "Verif.Text.C95_int64_fails",
    "Verif.Text.C95_least_double_is_ub",
    "Verif.Text.C95_nan_fails",
    "Verif.Text.C95_float_fails",
    "Verif.Text.C95_depth_fails",
    "Verif.Text.C95_fails"
   ],
   "note": "Proved for plain texts and names, integers of up to 32 bits (and 64-bit ones where %i happens to print them), finite doubles of up to 23 characters and up to 32 nested containers; missing: escaping, 64-bit integers, hugeint, floats, NaN, deeper nesting, for which failures are proved. printf, UTF-8 validation and decimal rounding are parameters assumed honest."
  },
  {
   "property": "C96",
   "status": "partial",
   "theorems": [
    "Verif.NestCol.C96_nested_partial",
    "Verif.NestCol.C96_scan_partial",
    "Verif.NestCol.C96_null_list_of_arrays_fails",
    "Verif.NestCol.C96_fetch_list_of_arrays_fails",
    "Verif.NestCol.C96_fetch_array_of_arrays_fails",
    "Verif.NestCol.C96_scan_many_arrays_is_ub",
    "Verif.NestCol.C96_fails"
   ],
   "note": "Proved for types without arrays inside lists or arrays (scans also with arrays in arrays). The failing cases are C96_null_list_of_arrays_fails, C96_fetch_list_of_arrays_fails, C96_fetch_array_of_arrays_fails (zeros are read instead of the elements) and C96_scan_many_arrays_is_ub; C96_fails negates the full claim."
  },
  {
   "property": "C97",
   "status": "partial",
   "theorems": [
    "Verif.Table.C97_update_where_partial",
    "Verif.Table.C97_update_all_partial",
    "Verif.Table.C97_second_update_fails",
    "Verif.Table.C97_update_null_fails",
    "Verif.Table.C97_update_text_fails",
    "Verif.Table.C97_update_behind_is_ub",
    "Verif.Table.C97_swap_fails",
    "Verif.Table.C97_update_fails"
   ],
   "note": "Proved for UPDATE with a condition on tables of at most 1024 rows not updated before (condition columns not NULL, right sides independent), and without a condition when a row was deleted before. Witnesses that the full claim fails: second UPDATE, NULL, texts, dependent assignments, UPDATE behind earlier ones."
  },
  {
   "property": "C98",
   "status": "partial",
   "theorems": [
    "Verif.Arrow.C98_import_partial",
    "Verif.Arrow.C98_import_sliced_struct_partial",
    "Verif.Arrow.C98_export_partial",
    "Verif.Arrow.C98_round_trip_partial",
    "Verif.Arrow.C98_sliced_chunk_fails",
    "Verif.Arrow.C98_sliced_structs_fails",
    "Verif.Arrow.C98_list_of_sliced_structs_fails",
    "Verif.Arrow.C98_unpadded_is_ub",
    "Verif.Arrow.C98_dictionary_is_ub",
    "Verif.Arrow.C98_lists_of_arrays_is_ub",
    "Verif.Arrow.C98_import_fails",
    "Verif.Arrow.C98_array_in_list_fails",
    "Verif.Arrow.C98_round_trip_fails"
   ],
   "note": "Full claims C98_import_claim and C98_round_trip_claim are refuted (C98_import_fails, C98_round_trip_fails). Proved: export and round trip of chunks without arrays in lists and without DICTIONARY vectors of arrays; import of arrays without struct offsets, with padded or unsliced validity buffers. Missing: sliced chunks and structs, arrays in lists, dictionaries; decimals, maps, unions, views, run ends are not modelled."
  },
  {
   "property": "C99",
   "status": "partial",
   "theorems": [
    "Verif.Arrow.C99_read_distinct",
    "Verif.Arrow.C99_read_any",
    "Verif.Arrow.C99_first_names_kept",
    "Verif.Arrow.C99_names_fails",
    "Verif.Arrow.C99_round_trip_partial",
    "Verif.Arrow.C99_named_column_is_ub",
    "Verif.Arrow.C99_named_field_is_ub",
    "Verif.Arrow.C99_composed_format_is_ub",
    "Verif.Arrow.C99_blob_throws",
    "Verif.Arrow.C99_round_trip_fails"
   ],
   "note": "Reading is proved for all schemas the format describes; handing out only for columns and fields without a name and without composed formats, because everything else is undefined in the code."
  },
  {
   "property": "C100",
   "status": "partial",
   "theorems": [
    "Verif.Lex.C100_total",
    "Verif.Lex.C100_tokens",
    "Verif.Lex.C100_quoted_text",
    "Verif.Lex.C100_joined_texts",
    "Verif.Lex.C100_quoted_text_partial",
    "Verif.Lex.C100_text_with_zero_fails",
    "Verif.Lex.C100_escapes",
    "Verif.Lex.C100_escaped_zero_fails",
    "Verif.Lex.C100_blanks",
    "Verif.Lex.C100_comments",
    "Verif.Lex.C100_sign_after_operator",
    "Verif.Lex.C100_long_operator",
    "Verif.Lex.C100_comment_after_operator",
    "Verif.Lex.C100_case",
    "Verif.Lex.C100_quoted_name_partial",
    "Verif.Lex.C100_name_characters",
    "Verif.Lex.C100_long_name_fails",
    "Verif.Lex.C100_integers_partial",
    "Verif.Lex.C100_large_integer_fails"
   ],
   "note": "Scanner of SQL texts. Proved for all byte strings: the scan ends without undefined behaviour; all tokens of the relation Writes in all layouts; quoted and escaped texts are one token; signs and comments behind operators. Partial: integers between 2^31 and 2^63, names of 64 bytes or more, texts with a 0."
  },
  {
   "property": "C101",
   "status": "partial",
   "theorems": [
    "Verif.Place.C101_files_partial",
    "Verif.Place.C101_confined_partial",
    "Verif.Place.C101_base_index_fails",
    "Verif.Place.C101_shared_tree_fails",
    "Verif.Place.C101_dot_fails",
    "Verif.Place.C101_parent_fails",
    "Verif.Place.C101_absolute_fails",
    "Verif.Place.C101_slash_fails",
    "Verif.Place.C101_own_name_fails",
    "Verif.Place.C101_files_fails"
   ],
   "note": "Proved for every history over names that can be names of files, with databases not named as a file of the engine and indexes not named base_index (C101_files_partial, C101_confined_partial); the other names are shown to fail."
  },
  {
   "property": "C102",
   "status": "partial",
   "theorems": [
    "Verif.Place.C102_exclusive_partial",
    "Verif.Place.C102_directories_partial",
    "Verif.Place.C102_refused",
    "Verif.Place.C102_same_place",
    "Verif.Place.C102_reopen_partial",
    "Verif.Place.C102_failed_open_fails",
    "Verif.Place.C102_reopen_fails",
    "Verif.Place.C102_closing_fails",
    "Verif.Place.C102_two_spellings_fails",
    "Verif.Place.C102_exclusive_fails"
   ],
   "note": "Proved for all interleavings: texts of paths are exclusive while held, second instances are refused, reopening works if no opening failed; for configurations made by create_config the directories differ. Witnesses for spellings, overlapping destruction and failed opening."
  },
  {
   "property": "C103",
   "status": "partial",
   "theorems": [
    "Verif.Node.C103_once",
    "Verif.Node.C103_answered",
    "Verif.Node.C103_progress",
    "Verif.Node.C103_alive_partial",
    "Verif.Node.C103_all_answered_partial",
    "Verif.Node.C103_drops_fails",
    "Verif.Node.C103_drop_and_read_fails",
    "Verif.Node.C103_drop_database_fails",
    "Verif.Node.C103_fails"
   ],
   "note": "Proved for every schedule: answers are given once and for the request they name; when the process runs and rests, every request since the last start is answered; five rounds of turns per message bring it to rest or end it. That it does not end is proved when drops do not meet other requests (_partial) and refuted otherwise (_fails)."
  },
  {
   "property": "C104",
   "status": "partial",
   "theorems": [
    "Verif.DocSchema.C104_schema_partial",
    "Verif.DocSchema.C104_get_schema_partial",
    "Verif.DocSchema.C104_update_fails",
    "Verif.DocSchema.C104_refused_insert_fails",
    "Verif.DocSchema.C104_same_id_fails",
    "Verif.DocSchema.C104_two_deletes_fails",
    "Verif.DocSchema.C104_restart_fails",
    "Verif.DocSchema.C104_restart_delete_fails",
    "Verif.DocSchema.C104_hidden_fails",
    "Verif.DocSchema.C104_names_end_fails",
    "Verif.DocSchema.C104_fails"
   ],
   "note": "Proved for histories whose inserts have new and different _ids, whose deletes do not overlap, whose updates keep names and types of fields, without restarts, and with names of fields that keep their distance: the process goes on, and a settled schema knows exactly the fields and types of the documents; what clients are told is so, and complete if fields have one type. Missing: each of these conditions is needed (C104_*_fails)."
  },
  {
   "property": "C105",
   "status": "partial",
   "theorems": [
    "Verif.Py.C105_find_one_partial",
    "Verif.Py.C105_delete_many_partial",
    "Verif.Py.C105_delete_one_partial",
    "Verif.Py.C105_gone_partial",
    "Verif.Py.C105_no_dictionary",
    "Verif.Py.C105_insert_many_partial",
    "Verif.Py.C105_insert_one_partial",
    "Verif.Py.C105_call_fails",
    "Verif.Py.C105_delete_fails",
    "Verif.Py.C105_not_fails",
    "Verif.Py.C105_refused_fails",
    "Verif.Py.C105_insert_fails"
   ],
   "note": "inserts, find_one and deletes of Python exact for the conditions of C92; refuted: names like call, $not at the root, refused inserts"
  },
  {
   "property": "C106",
   "status": "partial",
   "theorems": [
    "Verif.Py.C106_walk_partial",
    "Verif.Py.C106_loop",
    "Verif.Py.C106_again",
    "Verif.Py.C106_order",
    "Verif.Py.C106_sort_partial",
    "Verif.Py.C106_sort_dict",
    "Verif.Py.C106_index_is_ub",
    "Verif.Py.C106_after_loop_is_ub",
    "Verif.Py.C106_empty_is_ub",
    "Verif.Py.C106_fails",
    "Verif.Py.C106_direction_fails",
    "Verif.Py.C106_deleted_is_ub",
    "Verif.Py.C106_rows_fails",
    "Verif.Py.C106_error_fails"
   ],
   "note": "every sequence of calls that stays within the documents, loops and sorts; refuted: beyond the end, answers of deletes, rows of tables, sort without a direction"
  },
  {
   "property": "C107",
   "status": "partial",
   "theorems": [
    "Verif.Lex.C107_words",
    "Verif.Lex.C107_every_text",
    "Verif.Lex.C107_one_statement",
    "Verif.Lex.C107_error",
    "Verif.Lex.C107_first_partial",
    "Verif.Lex.C107_none_is_ub",
    "Verif.Lex.C107_blank_is_ub",
    "Verif.Lex.C107_second_fails"
   ],
   "note": "Proved: the words the grammar sees for every text, one statement among empty ones, errors refuse the whole text. Partial: of several statements only the first is executed, none is undefined behaviour (witnesses). The grammar of one statement is a parameter."
  },
  {
   "property": "C108",
   "status": "partial",
   "theorems": [
    "Verif.Node.C108_answers",
    "Verif.Node.C108_goes_on_partial",
    "Verif.Node.C108_answered_partial",
    "Verif.Node.C108_size",
    "Verif.Node.C108_missing_fails",
    "Verif.Node.C108_dropped_database_fails",
    "Verif.Node.C108_drop_fails",
    "Verif.Node.C108_write_is_ub",
    "Verif.Node.C108_fails"
   ],
   "note": "Proved for all schedules: no request is answered twice and every answer was right at a moment in between. Partial: that the process goes on and every request is answered needs that nothing is dropped, the collections exist and are not counted while written to (witnesses)."
  },
  {
   "property": "C109",
   "status": "partial",
   "theorems": [
    "Verif.Py.Names.C109_collection_names",
    "Verif.Py.Names.C109_database_names",
    "Verif.Py.Names.C109_returns",
    "Verif.Py.Names.C109_drop",
    "Verif.Py.Names.C109_get",
    "Verif.Py.Names.C109_names_partial",
    "Verif.Py.Names.C109_dropped_fails",
    "Verif.Py.Names.C109_second_object_fails",
    "Verif.Py.Names.C109_sql_fails",
    "Verif.Py.Names.C109_restart_fails",
    "Verif.Py.Names.C109_database_gone_fails",
    "Verif.Py.Names.C109_database_names_fails",
    "Verif.Py.Names.C109_fails"
   ],
   "note": "Lists are exactly what was asked for through the object, drops and lookups do what they say, every call returns; agreement with what exists only for polite calls from an empty database; six witnesses of disagreement."
  },
  {
   "property": "C110",
   "status": "partial",
   "theorems": [
    "Verif.Node.C110_forgets",
    "Verif.Node.C110_find_fails",
    "Verif.Node.C110_created_empty",
    "Verif.Node.C110_bare_partial",
    "Verif.Node.C110_fails",
    "Verif.Node.C110_insert_lost_fails"
   ],
   "note": "Proved for all states: after a C start nothing is there, requests are answered as in an empty node, created collections are empty; a program that creates nothing leaves everything for the next start with load; the claim itself is refuted and a lost insert is shown."
  },
  {
   "property": "C111",
   "status": "partial",
   "theorems": [
    "Verif.Glob.C111_glob",
    "Verif.Glob.C111_plain",
    "Verif.Glob.C111_itself_fails",
    "Verif.Glob.C111_itself_partial",
    "Verif.Glob.C111_dash_fails",
    "Verif.Glob.C111_utf8_fails",
    "Verif.Glob.C111_question_fails"
   ],
   "note": "Soundness and completeness of the matcher against a grammar of patterns, for all patterns and names (C111_glob). That a name matches itself is proved for names without backslash and fails with one; the other _fails theorems are differences from the usual meaning of patterns."
  },
  {
   "property": "C112",
   "status": "partial",
   "theorems": [
    "Verif.Glob.C112_search_partial",
    "Verif.Glob.C112_plain",
    "Verif.Glob.C112_real",
    "Verif.Glob.C112_root_fails",
    "Verif.Glob.C112_absolute_fails",
    "Verif.Glob.C112_crawl_fails",
    "Verif.Glob.C112_two_crawls_fails",
    "Verif.Glob.C112_colon_fails",
    "Verif.Glob.C112_fails"
   ],
   "note": "For all trees and patterns with at most one ** and a first part of the kind named in the theorem, the search finds exactly what fits (C112_search_partial). Missing: absolute patterns whose first part is special, ** first, two **, a colon in the first part; for these the claim is false (the _fails theorems). ~, ., .. and links are not modelled."
  },
  {
   "property": "C113",
   "status": "partial",
   "theorems": [
    "Verif.ArrowMeta.C113_round_trip",
    "Verif.ArrowMeta.C113_options",
    "Verif.ArrowMeta.C113_set",
    "Verif.ArrowMeta.C113_keys",
    "Verif.ArrowMeta.C113_canonical",
    "Verif.ArrowMeta.C113_large_fails",
    "Verif.ArrowMeta.C113_fails",
    "Verif.ArrowMeta.C113_empty_fails",
    "Verif.ArrowMeta.C113_non_canonical_fails",
    "Verif.ArrowMeta.C113_short_is_ub",
    "Verif.ArrowMeta.C113_negative"
   ],
   "note": "Round trip, options, setting and canonical types are proved for all metadata with counts and lengths below 2^31, which is part of the hypothesis Small. Beyond it the claim is false (C113_large_fails, C113_fails); the other _fails theorems are what the interface cannot say."
  },
  {
   "property": "C114",
   "status": "partial",
   "theorems": [
    "Verif.WalId.C114_noted",
    "Verif.WalId.C114_first_load",
    "Verif.WalId.C114_again_fails",
    "Verif.WalId.C114_tail_fails",
    "Verif.WalId.C114_stop_partial",
    "Verif.WalId.C114_digit_partial",
    "Verif.WalId.C114_torn_fails",
    "Verif.WalId.C114_shorter_fails",
    "Verif.WalId.C114_fails"
   ],
   "note": "Proved for the first load of every program and for stops before or behind the write; a second load and a stop in the middle of the text are refuted with witnesses."
  },
  {
   "property": "C115",
   "status": "partial",
   "theorems": [
    "Verif.IdxFile.C115_file",
    "Verif.IdxFile.C115_stop_partial",
    "Verif.IdxFile.C115_stop_text",
    "Verif.IdxFile.C115_stop_fails",
    "Verif.IdxFile.C115_zeros_fails",
    "Verif.IdxFile.C115_later_fails",
    "Verif.IdxFile.C115_drop_stop",
    "Verif.IdxFile.C115_drop_stop_fails",
    "Verif.IdxFile.C115_fails",
    "Verif.IdxFile.C115_real",
    "Verif.IdxFile.C115_real_zeros_is_ub",
    "Verif.IdxFile.C115_real_throws_fails"
   ],
   "note": "Proved for every history and for stops before the size or behind the text of a new index; stops in between and what is made after a stop are refuted with witnesses."
  },
  {
   "property": "C116",
   "status": "partial",
   "theorems": [
    "Verif.VecSel.C116_compare_partial",
    "Verif.VecSel.C116_each",
    "Verif.VecSel.C116_shorter_is_ub",
    "Verif.VecSel.C116_neither_is_ub",
    "Verif.VecSel.C116_fails"
   ],
   "note": "Proved for all kinds of columns if a selection is asked for and the right mask is not the shorter one; the other cases are refuted."
  },
  {
   "property": "C117",
   "status": "partial",
   "theorems": [
    "Verif.VecHash.C117_hash_partial",
    "Verif.VecHash.C117_differs",
    "Verif.VecHash.C117_value",
    "Verif.VecHash.C117_no_columns_is_ub",
    "Verif.VecHash.C117_type_throws",
    "Verif.VecHash.C117_fails"
   ],
   "note": "C117_hash_partial: rows with the same cells have the same hash, in all ways of storing simple and list columns; C117_differs: one different simple cell makes the hash different; C117_value. Missing from the full claim: types without a hash throw (C117_type_throws, C117_fails). Structures and fixed-size arrays are not modelled."
  },
  {
   "property": "C118",
   "status": "partial",
   "theorems": [
    "Verif.VecCache.C118_slice",
    "Verif.VecCache.C118_slice_partial",
    "Verif.VecCache.C118_reused",
    "Verif.VecCache.C118_reused_fails"
   ],
   "note": "C118_slice: rows asked for in all columns, others unchanged, for every sharing and allocator; C118_slice_partial: kept under later writes to the caller's indexing by columns that were not flat; flat ones show the new rows (C118_reused, C118_reused_fails). Structures and validity are left to C81."
  },
  {
   "property": "C119",
   "status": "partial",
   "theorems": [
    "Verif.UVec.C119_vector_partial",
    "Verif.UVec.C119_made",
    "Verif.UVec.C119_empty_is_ub",
    "Verif.UVec.C119_huge_fails",
    "Verif.UVec.C119_sign_fails",
    "Verif.UVec.C119_fails"
   ],
   "note": "C119_vector_partial: any history of reserve, resize, shrink and writes, for vectors that start with elements, sizes below 2^64 bytes, values equal to zero being zero bytes; C119_made. Missing from the full claim, with counterexamples: C119_sign_fails, C119_huge_fails, C119_empty_is_ub, C119_fails."
  },
  {
   "property": "C120",
   "status": "partial",
   "theorems": [
    "Verif.VFs.C120_files_partial",
    "Verif.VFs.C120_route",
    "Verif.VFs.C120_disabled_partial",
    "Verif.VFs.C120_disabled_fails",
    "Verif.VFs.C120_enable",
    "Verif.VFs.C120_home_fails",
    "Verif.VFs.C120_fails"
   ],
   "note": "Without home directories every history treats the files as one tree; requests go to the first sub system that handles the path; with assertions disabled systems are never used nor enabled again. Missing: home directories (C120_home_fails) and disabling without assertions (C120_disabled_fails)."
  },
  {
   "property": "C121",
   "status": "partial",
   "theorems": [
    "Verif.ABuf.C121_capacity",
    "Verif.ABuf.C121_bytes",
    "Verif.ABuf.C121_validity",
    "Verif.ABuf.C121_pushed",
    "Verif.ABuf.C121_fails"
   ],
   "note": "Sizes up to 2^63, operations that count bytes (C121_bytes, C121_validity) and pushing values of one size (C121_pushed) each for themselves. Missing: both mixed, which fails (C121_fails)."
  }
 ]
}
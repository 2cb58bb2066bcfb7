# Formal model of duckstax/otterbrix in Lean 4

The C++ source in `/repo` was read as text; nothing was built or run. Every model
definition cites the file and lines it models and says where it simplifies.

## Layout

* `lean/Verif/<Component>/Model.lean` – model of the code, function by function.
* `lean/Verif/<Component>/Spec.lean` – small independent specification (what the English
  property says, without the model's helpers), where one is needed.
* `lean/Verif/<Component>/Lemmas.lean` – helper lemmas.
* `lean/Verif/<Component>/Props.lean` – the property theorems (`Cnn_...`), each with a
  non-vacuity `example` beside it.
* Where the code disagrees with a property, the full property stays as a definition
  `Cnn_..._claim` (or in the statement of the theorem), its negation is proved with a concrete
  reachable witness as `Cnn_..._fails`, and the part that holds as `Cnn_..._partial`.
* `seeded/LOG.jsonl` – wrong programs tried against the theorems.

## Trusted base

* Lean 4.33.0's kernel, and the axioms `propext`, `Classical.choice`, `Quot.sound` (the only
  ones any theorem depends on; `vcheck` replays every constant through the kernel and lists
  axioms). No `sorry`, no own axioms, no `native_decide`, no `bv_decide`.
* That the model is what the C++ does. C++ undefined behaviour, exceptions and endless loops are
  separate outcomes in the model (`Res.ub`, `Res.throws`, `Res.diverges`), never silently
  totalised. Assertions are taken as compiled out, unless a theorem says otherwise (C15).
  An exception leaving a `noexcept` function (end of the process) counts as `ub`.
* Library semantics assumed: `std::map`/`multimap`/`vector`/`sort`, POSIX `pread`/`write` on a
  regular file (short reads only at end of file unless the theorem quantifies over them, C45),
  msgpack-c's wire format, `absl::ComputeCrc32c` = the standard CRC-32C, RocksDB as a map with
  atomic single puts, IEEE 754 arithmetic with round to nearest even (modelled, `Num`), actor-zeta
  delivering the messages of one mailbox one at a time and in order per sender.
* Memory exhaustion, allocation failure and stack depth are not modelled.

## Plan per property

| id | modelled | proof |
|----|----------|-------|
| C01, C02, C05 | log file as bytes; `pack`, `read_size`, `read_id`, `read_record`, `init_id`, `find_start_record`, `load`; payload = real msgpack encoding of `[crc, id, node, params]` (`Wal`, `Msgpack`) | round trip of encode/decode for all inputs and all surrounding bytes; induction over the append/reopen history |
| C03 | same, with the 16-bit truncation of the size | negation with a witness of length 65536+; `_partial` for payloads below 65536 bytes |
| C04 | crash = any prefix of the last append | negation with witness; `_partial`: complete records are still delivered first; crash at record boundary exact |
| C45 | `local_file_system.cpp` read/write loops incl. the non-advancing offset (`File`) | negation for split transfers; exact for one-call transfers; sequential writes under every schedule of short writes |
| C06 | CRC-32C bit-serial over GF(2) | linearity + injectivity of the shift register; burst errors ≤ 32 bits |
| C07 | dispatcher, executor, WAL, disk and clients as a message-passing transition system (`Node`) | inductive invariant over all schedules |
| C08 | `Node` with the disk's contents, the log and the load after a restart | negations (updates lost; log of an empty disk not replayed; ...) + `_partial`: drained restart; crash at any moment for insert/delete histories |
| C09, C10 | dispatcher checks, catalog, memory storage maps (`Node`) | refinement to a set of databases/collections; negation for resurrecting data |
| C11 | `metadata.cpp` writer and parser on characters (`Metadata`) | round trip for separator-free names; negation with separators |
| C12 | B+ tree of segment trees, insert/remove/flush/load (`BTree`, `SegTree`) | refinement to a finite map; negations |
| C13, C15 | page with header, counters and item table as bytes (`Block`) | refinement to a sorted list; byte-level round trip |
| C14 | gap tracker (`GapTracker`) | exact set of free bytes as an invariant |
| C16 | `index_disk` over the tree (`IndexDisk`) | translation of the six comparisons; composed with C12 |
| C17–C26 | operators of `components/physical_plan/collection` over documents (`Query`) | equational proofs by induction over lists; maintenance of indexes by induction over histories |
| C27, C28, C47 | `physical_value` ordering; `logical_value_t` comparison and arithmetic, promotion table (`PhysKey`, `LogVal`, `Num`) | case analysis over all types, arithmetic over all values |
| C29–C31 | JSON pointers, document tree, set/remove/move/copy, merge (`Json`) | structural induction |
| C32, C48, C49 | tape words, getters, `compare` (`DocVal`) | case analysis over types; decision of all pairs of types |
| C33, C44 | documents, expressions, plans, parameters and log entries as msgpack bytes (`DocPack`, `PlanPack`) | structural induction over mutual trees |
| C34 | update expressions (`Update`) | structural induction |
| C35–C37 | versioned trie, computed schema, schema transactions (`Trie`, `CompSchema`, `SchemaTxn`) | refinement to maps / invariants over operations |
| C42, C46 | table ids and collection names (`TableId`) | round trip on characters |
| C38, C39 | `row_version_manager` (`Mvcc`) | refinement to per-row insert/delete ids |
| C40, C41 | validity mask on 64-bit words; segment lookup binary search (`Validity`, `SegLookup`) | bit-level extensionality; loop invariant |
| C43 | spinlock as atomic steps of any number of threads (`Spinlock`) | inductive invariant over all schedules |
| C50, C51 | `wrapper_dispatcher.cpp`, `session_blocker.cpp`: threads, mutex, condition variable, slots (`Wrapper`) | inductive invariants over all schedules; two-thread counterexamples |
| C52 | `session.cpp` as atomic steps (`Session`) | invariant over all schedules |
| C53 | `cursor.cpp` (`Cursor`) | refinement to a list and a position |
| C54 | SQL conditions to filters: `transfrom_common.cpp` (`Sql`) | induction over the condition against three-valued truth, composed with the scan of C19/C22 |
| C55 | `transform_select.cpp`, `create_plan_group.cpp`, `aggregation.cpp` (`Sql`) | composed with C24–C26 |
| C56 | `join_dfs` (`Sql`) | composed with C23 |
| C57 | `transform_delete.cpp` (`Sql`) | composed with C18 |
| C58 | `transform_update.cpp` without FROM (`Sql/UpdateModel`) | translation = `buildSets`, then C34 per document; C54 for WHERE |
| C59 | `transform_insert.cpp` VALUES (`Sql/UpdateModel`) | induction over columns; composed with C17, C60 |
| C60 | `oid.hpp` (`Oid`) | induction over the bytes; complete tables of the 256 characters |
| C61–C66 | `components/table`: `update_segment`, `column_data`, `standard_column_data`, `column_segment` (fixed size), `row_group`, `collection`, `table_state`, `data_table` (`Table`) | refinement to lists of cells: invariant per column, group and table, over all histories of appends, deletes and updates; scans by induction over rounds and groups |
| C67 | `collection_t::scan` with one chunk for all row groups: pointers of the vector into segments (`Table/Reuse`) | induction over row groups with the memory as state |
| C68, C69 | `physical_plan/table/operators`: `full_scan`, `transfer_scan`, `operator_delete` (`Table/OpsModel`) | composed from the scan lemmas of C61/C64 and from C62 |
| C70–C73 | `physical_plan/table/operators`: `operator_match`, predicates, `operator_join`, `operator_sort`, `operator_group` and the aggregates (`ChunkOp/Model`, `ChunkOp/GroupModel`) | chunks as lists of rows of optional values; the condition by induction against three-valued logic; loops by induction with the rows so far; `std::sort` as a relation (contract broken: any outcome); grouping against `firsts` and `filter` |
| C74 | `index_engine` (`insert_row`, `delete_row`), `single_field_index`, table `index_scan`, `operator_insert`, `create_index_finish` (`Table/IndexModel`) | the index as an ordered list of keys and rows; invariant that it tracks the rows that are left, kept by the first INSERT and by deletes through the index; composed with C61, C62, C65 |
| C75 | `get_type`, `transform_create_table`, `get_logical_type`, the grammar of types, `create_collection_` (`Ddl`) | a separate table of what each declaration means; case analysis over declarations (the names outside the table through membership), induction over the elements |
| C76 | `transform_drop`, `transform_create_index`, `qualified_name`, `rangevar_to_collection` (`Ddl`) | a separate relation between dotted names and collections, case analysis over the number of parts |
| C77 | executor, index engine, `search_by_index`, `sync_index_from_disk`, `index_find_finish`, `index_modify_finish`, the index agent and the two queues between them (`DiskIdx`) | schedules as lists of events; an invariant that ties the pairs on disk, the messages on the way and the waiting plans to the documents, kept by every event; what a waiting query will find is what it selected when it was asked |
| C78 | the same, with the documents written to disk and the start over them (`DiskIdx`) | invariant over schedules; the state after a restart is again one C77 speaks about |
| C79 | index engines, `create_index_agent`, `drop_index_agent`, `flush`, the file of indexes and its reading at the start, CREATE and DROP of collections (`IdxReg`) | refinement of an ideal database by an invariant over histories of statements, restarts and crashes |
| C80 | vectors of scalars, strings, lists, arrays and structs: constructor, `set_value`, `value`, `resize` (`VecVal/Model`) | induction over types and over histories of writes, with an invariant on what each buffer has room for |
| C81 | `slice` of vectors and chunks (`VecVal/SliceModel`) | induction over types and over chains of slices |
| C82 | `vector_ops::copy`, `data_chunk_t::append`, `copy`, `slice`, `reset` (`VecVal/SliceModel`) | refinement of lists of rows, by mutual induction over how a chunk is built |
| C83 | `set_value` on a sliced vector (`VecVal/SliceModel`) | the write to the child, read with the validity of the slice |
| C84 | who holds pointers to which documents: clients, answers, collections; INSERT, INSERT … SELECT, UPDATE, DELETE, SELECT (`Share/Model`) | invariant on pointers over histories; ownership for clients that give each document away once |
| C85 | the same (`Share/Model`) | refinement of a store of values (`Share/Spec`), by simulation over histories |
| C86 | `INSERT … SELECT`: check of the column list, the SELECT's plan under the operator, the new `_id`s (`Sql/InsertSelectModel`) | from C55 (what SELECT gives) and the insert operator; counterexamples by evaluation |
| C87 | `UPDATE … FROM`: translation with two tables, the loop over pairs (`Sql/UpdateFromModel`) | induction over assignments, partners and documents; the condition read through `tr_sound`; `Sql/UpdateFromSpec` |
| C88 | the C interface: handles, objects behind them, every function of `integration/c/main.cpp` (`CApi/Model`) | simulation: one step of what the program may expect (`CApi/Spec`) is one step of the code; induction over programs; counterexamples by evaluation |
| C89 | texts and error messages handed out by the C interface (`CApi/Model`: `strcpy`) | computed for every document, place and text |
| C90 | the bytes of a segment of a text column: header, offsets, texts, blocks of long texts (`TextSeg/Model`) | invariant of the bytes, stated of each offset and each text; frame lemmas for writes; `C90_room` and `C90_columns` carry it to the tables of C61 |
| C91 | Python objects made into documents and back (`Py/Model`: convert.cpp `build_primitive`, `build`, `to_document`, `from_value`, `from_document`, `_id` of wrapper_collection.cpp) | round trip by mutual induction over objects; each text of the tape is read back after every later write (`read_extended`) |
| C92 | conditions of `find` as Python dicts (`Py/FindModel`: `parse_find_condition_*`, `normalize_union`, `get_compare_type`, parameters, predicates) | mutual induction over conditions: the expressions made of a part mean what the part says (`Py/FindSpec`), parameters stay what they were; `Query` (C22, C32) for the comparisons |
| C93 | updates through the Python API (`Py/UpdModel`: wrapper_collection.cpp `update_one`, `update_many`, operator_update.cpp) | the update document becomes the nodes of its fields (`document_node`), each field an assignment with its parameter, whatever order a hash map visits them in; assignments of different fields do not disturb each other (`run_ops`, from C34); C92 for the documents chosen |
| C94 | the buffer manager: allocating, pinning, unpinning, eviction queues, memory counters with their caches, the limit (`Buf/Model`: standard_buffer_manager.cpp, buffer_pool.cpp, block_handle.cpp, file_buffer.cpp) | simulation (`Buf/Refine`, `Buf/Steps`) of an ideal memory of objects with contents (`Buf/Spec`), for every history of calls and threads; the counters are off by less than what their caches hide (`near`); every unpinned block is in its queue (`Inv`), so that refusing memory means there is none |
| C95 | `to_json` and `document_from_json` (`Text/Model`: document.cpp, json_trie_node.cpp, json_object.cpp, json_array.cpp) with the reader of Boost.JSON and `sprintf` (`Text/Boost`: the grammar of RFC 8259; what `%.17g` prints and how a decimal is rounded are parameters) | induction over documents: the text of a node is read as a value from which a like node is built, whatever may follow it (`Text/Lemmas`: `Reads`, `Works`) |
| C96 | columns of lists, arrays and structs (`NestCol/Model`: list_column_data.cpp, array_column_data.cpp, struct_column_data.cpp on top of the columns of `Table/Model`; `vector_ops::copy`, `vector_t::flatten`, `value`, `resize` and the reserve of list vectors) | induction over types: `Holds` says what a column holds at each level; append adds, scan and fetch read (`NestCol/Append`, `Scan`, `Fetch`) |
| C97 | UPDATE on columnar tables: `operator_update` with one child, `update_expr_*` on chunks, the writes through vectors that point into segments (`Table/UpdateModel`) | composed from the scan lemmas of C61/C64 and the update lemmas of C63; the writes into segments keep the invariant up to the rows to be updated (`Table/UpdateOp`) |
| C98 | Arrow C data interface: the appenders (validity bits, scalars, booleans, strings, lists, fixed size lists, structs) and `data_chunk_from_arrow` with the conversion of every kind of column, bit shifts and offsets included (`Arrow/Model`); the meaning of an Arrow array is in `Arrow/Spec` | induction over types: bits (`Bits`), offsets and entries (`Read`), arrays taken in (`Import`), vectors handed over (`Export`) |
| C99 | Arrow schemas: `to_arrow_schema` (formats, names, children) and `schema_from_arrow` (formats read, empty names filled in, repeated names made different) (`Arrow/SchemaModel`); what a schema describes is the relation `Describes` (`Arrow/SchemaSpec`) | induction over the relation for types; pigeonhole for the end of the search for a free name (`SchemaLemmas`) |
| C100 | The scanner of SQL (`scan.l`, `scansup.cpp`, `keyword.cpp`): texts in all notations but `U&`, names, keywords, numbers, operators, parameters, blanks and nested comments (`Lex/Model`, the keywords in `Lex/Keywords`); how tokens are written is the relation `Writes`, whole queries are lists of pieces (`Lex/Spec`) | each rule takes something, so the scan ends (`Lex/Total`); binary search in any sorted table (`Lex/Words`); one lemma for every kind of token (`Lex/Tokens`, `Lex/Marks`), induction over the pieces (`Lex/Round`) |
| C101 | Where files are kept: `std::filesystem::path` joined from the configuration and names, resolved by the operating system; writing a file, removing a directory (`Place/Model`). What is expected is a map with last-write-wins and drops (`Place/Spec`) | location of a joined path by induction over its text; no good place is a prefix of another one; induction over the calls (`Place/Lemmas`) |
| C102 | Instances of one process: the check and insertion under the mutex, failures in the constructor, the destructor in two steps, as atomic steps of any threads (`Place/Model`) | invariant: the set holds exactly the paths of instances being made, made, or failed, each once (`Place/Inst`) |
| C103 | The node of C07-C10 (`Node/Model`): any number of clients, any order of the actors' turns, crashes anywhere; which requests were sent, what a round of turns is (`Node/AnswerSpec`) | invariant: a waiting client has exactly one message under way; a weight of messages that decreases in every round; between drops every collection of the catalog is in memory and has a tree once the disk has caught up (`Node/AnswerLemmas`, `Node/AliveLemmas`) |
| C104 | Documents of the collections, schemas (`CompSchema`), the result of the last delete that the dispatcher keeps, the queues between executor, log and catalog (`DocSchema/Model`); which fields documents have, which plans can be followed (`DocSchema/Spec`) | refinement: the counts of the schemas, changed by all that is on its way, are the counts of the documents; then C36 (`DocSchema/Lemmas`) |
| C105 | `insert_one`, `insert_many`, `find_one`, `delete_one`, `delete_many` of Python (`Py/DelModel`) on top of the conditions of C92 and the writes of C17, C18; the specification is `sat` of `Py/FindSpec` | the filter of a condition accepts what satisfies it (C92), then the deletes of C18 as `filter` and `eraseP` of lists |
| C106 | The cursor of Python (`Py/CurModel`) on top of C53; a position in a list of documents (`Py/CurSpec`) | induction over the calls; sorting from C25 |
| C107 | The lookahead of `base_yylex`, the list of statements and `execute_sql` (`Lex/MultiModel`) behind the scanner of C100; the grammar of one statement and its execution are parameters. Words and statements are relations in `Lex/MultiSpec` | the lookahead as a state that stands for the tokens left, induction over these; no pair of words goes across `;`, so the parts can be taken one by one |
| C108 | `size` beside everything else a node does (`Node/SizeModel` around the node of C103, with the executor in the middle of a write as a state); requests and answers are recorded, `Node/SizeSpec` | an invariant over all schedules that every count under way was right while its request waited; the catalog only grows without drops, and what is in it is in memory (from C103) |
| C109 | the `Client`, `DataBase` and `Collection` objects of Python with the names they keep, over the whole node of C09 (`Py/NamesModel`): a call sends its request and returns with the node's answer | what one call does to a list, by cases; induction over the calls, from both ends of the history (`Asked`); existence is what a query is answered, brought back to the world of C09; agreement of list and node as an invariant of polite calls |
| C110 | the start of a process through the C interface (`Node/CStartModel`), which makes the parts of the node of C09 and never has them load, beside the start with `load` (`restart`) | the node after such a start is ready and shows the empty world, so the answers are those of C09; an invariant over all schedules of a program that creates nothing; a start with `load` depends on log and disk only (it commutes with older answers), and opening a disk twice is opening it once |
| C111 | the matcher of file name patterns, `path_utils::glob`, with its loop over stars, its bracket parser and its fall-through case, and `has_glob` (`Glob/Model`); a grammar of patterns and what each part stands for (`Glob/Spec`) | soundness and completeness against the grammar, by strong induction on the length of the pattern; the bracket parser against its own grammar; stars by splitting the name |
| C112 | `glob_files` with its cutting of the text, the loop over the parts, `recursive_glob_directories`, `glob_files_internal` and `fetch_file_without_glob` over a tree of files (`Glob/FilesModel`) | the loop carries the paths found so far: by induction on the parts, a path is returned if and only if one of them extends to it along the remaining parts (`Glob/FilesLemmas`); the recursion by induction on the tree; the parts of the text by induction on it; the matcher through C111 |
| C113 | the metadata of Arrow schemas: setting and reading options, writing them to a block and reading a block, with what lies beyond it as undefined (`Arrow/MetaModel`) | a number of four bytes and a text are read as written with anything behind them; induction on the pairs that are left, with those read so far |
| C114 | the file WAL_ID: noting an id (write at the start, then cut), reading it as a line from where the handle stands, opening it again, stops after any byte (`WalId`) | invariant over histories: the file is the text of the id noted last; texts of numbers grow with the number; a text of digits is read as its number |
| C115 | the file of indexes to the byte: sizes, texts, reading them one by one, dropping by writing all others again, stops after any byte (`IdxReg/FileModel`), with the plans of C44 as texts (`IdxReg/FileReal`) | the file is the records of a list; a record is read with anything behind it; induction on the records and on the operations |
| C116 | `vector_ops::compare`: constants, flat vectors and dictionaries, the loop over the words of null masks, both selections (`VecSel`) | a loop over rows is a filter; the bits of a word say which of its rows are valid; induction on the entries left, with C40 for the combined mask |
| C117 | `data_chunk_t::hash`: `vector_ops::hash` and `combine_hash` for simple types and (nested) lists, constants, flat vectors and dictionaries, the rounds over list elements (`VecHash`) | the loops give in each row a function of its cell and the hash so far; the rounds by induction on the rounds left, over different rows; the factor is odd, so combining is injective in both arguments |
| C118 | `data_chunk_t::slice`, `vector_t::slice`, the cache of composed indexes and `indexing_vector_t` with arrays at addresses that are shared, freed and given out again (`VecCache`) | induction on the columns left: arrays of columns still to do and of the caller are as at the start, cached arrays that can still be asked for are the composed ones |
| C119 | `core/buffer.hpp`, `core/uvector.hpp`: memory, size and capacity, `reserve`, `resize`, `shrink_to_fit`, `set_element`, `element`, `make_uvector` (`UVec`) | refinement of a list of elements written or not, by induction on the operations |
| C120 | `virtual_file_system.cpp`: registering, removing, listing, disabling and choosing sub systems, with `open_file`, `file_exists`, `remove_file`, `move_files`, `expand_path`, `set_home_directory` of `local_file_system.cpp` (`VFs`) | refinement of one tree of files, by induction on the requests, with and without assertions; the disabled names only grow |
| C121 | `arrow_buffer.hpp`: `reserve` with the next power of two, both `resize`, `resize_validity`, `push_back`, writing through `data()` (`ABuf`) | refinement of a list of bytes known or not, by induction on the operations; the power of two bit by bit |
<!-- NEW ROWS -->

## What is modelled, what is not

Modelled, by directory of `/repo`:

* `services/wal`: `wal.cpp`, `dto.cpp` to the byte; the manager (`manager_wal_replicate.cpp`) as an
  actor of `Node`. Not: the `_empty` variants (they answer success without doing anything).
* `services/disk`: `metadata.cpp` to the byte; `disk.cpp`, `agent_disk.cpp`, `manager_disk.cpp` as
  actors of `Node`; `index_disk.cpp` over the B+ tree;
  `index_agent_disk.cpp` with the executor and the index engine as actors of `DiskIdx` (one index on one field); which indexes
  there are, the agents and the file of indexes in `IdxReg`, that file to the byte in `IdxReg/FileModel` (C115). Not: several
  disk indexes at once, UPDATE through them.
* `components/vector`: FLAT and sliced vectors, `vector_ops::copy` and data chunks in `VecVal`, masks in `Validity`. Comparing vectors, also constants and
  dictionaries, in `VecSel` (C116); hashing rows of them in `VecHash` (C117); the memory of
  indexes of slices in `VecCache` (C118). Not: constant and
  sequence vectors elsewhere, maps, unions, `generate`, hashing, arrow.
* `core/file/virtual_file_system.cpp` in `VFs` (C120), on a disk of regular files whose directories all exist; sub systems override their name and the paths they handle only.
* `components/vector/arrow/arrow_buffer.hpp` in `ABuf` (C121), without moving buffers and without failing allocations.
* `core/buffer.hpp` and `core/uvector.hpp` in `UVec` (C119); moving and printing buffers is not modelled.
* `services/dispatcher`, `services/memory_storage`, `services/collection/executor.cpp`,
  `integration/cpp/wrapper_dispatcher.cpp`: the paths of DDL and of single-collection
  insert/update/delete, as message handlers of `Node`; the collection contents in `Node` are maps
  from id to document, what a filter selects and an update does is a parameter of the request.
* `size` of the dispatcher and of the memory storage (`Node/SizeModel`, C108), for collections of documents.
* `Client`, `DataBase` and `Collection` of Python as far as names, creation and drops go (`Py/NamesModel`, C109).
* `otterbrix_create` as the start of a node (`Node/CStartModel`, C110).
* `core/file/path_utils.cpp: glob` and `has_glob` (`Glob/Model`, C111). The `split` functions are not modelled.
* `core/file/local_file_system.cpp: glob_files` on a tree of regular files and directories (`Glob/FilesModel`, C112): no links, pipes, access rights or changes during the
  search, no `~`, `.`, `..`, no path that ends in `/`; the search path is empty since nothing sets it. Results are compared as sets of paths, not by their order.
* `core/b_plus_tree`: `block.cpp`, `segment_tree.cpp/.hpp`, `b_plus_tree.cpp/.hpp`.
  Not: concurrency of the tree (its locks appear only as the lock left behind, C12).
* `core/spinlock`, `core/file/local_file_system.cpp` read/write paths.
* `services/disk/disk.cpp: fix_wal_id, wal_id`, `services/wal/base.hpp`, `file_handle_t::read_line` (`WalId`, C114), without errors of the system. `Node` takes the id
  as a number that is read as noted; C114 says when that is so.
* `components/document`: tape (`tape_builder`, `tape_ref`, `element`), tree
  (`json_trie_node`, `json_object`, `json_array`), `document.cpp` set/remove/move/copy/merge/compare,
  `value.cpp`, msgpack in both directions. JSON text in both directions (C95), the parser being Boost.JSON's. Not:
  `document_t::update` with `$set`/`$inc` documents.
* `components/physical_plan/collection`: scans, merges, match, sort, group, aggregates, join,
  insert, delete, update, index scan. Regular expressions are an oracle. Documents are values there; which documents are one
  object is the subject of `Share`.
* `components/expressions`, `components/logical_plan`, `components/serialization`: the msgpack
  variant. Not: the JSON variant of the serializer.
* `components/types`: `physical_value`, `logical_value_t` comparison, promotion, arithmetic of
  integers. Not: casts of nested types, decimals, 128-bit and floating point arithmetic of
  `logical_value_t`.
* `components/sql/transformer`: SELECT, DELETE, UPDATE without FROM, INSERT ... VALUES, CREATE TABLE, DROP, CREATE INDEX with the
  productions of the grammar that build type names and qualified names. UPDATE ... FROM (another collection) and INSERT ... SELECT.
* `components/oid`: all.
* `components/catalog`: trie, namespaces, computed schema, schema transactions, table ids.
* `components/table`: `row_version_manager`, `segment_tree.hpp`; appending, scanning, filtering, fetching,
  updating and deleting in tables of fixed-size columns, as sequential calls; the bytes of segments of texts (C90),
  without updates of texts; the buffer manager (C94), as sequential calls of any threads, without files behind it; struct, list and
  array columns alone (C96: append, scan, fetch), not inside tables. Not: reverting an append, the state after a call that threw.
* `components/physical_plan/table`: scan operators, DELETE without USING, match, join, sort, group and aggregates (the last five
  on chunks of scalar columns). INSERT and one index per table; UPDATE without FROM and without
  indexes (C97), calculations as any functions. Not: UPDATE ... FROM on tables, nested columns, disk indexes of tables.
* `integration/c/main.cpp`: every function (C88, C89); what the engine answers is a parameter, and
  creating a database always succeeds.
* `integration/python`: documents made of Python objects and back (C91), conditions of `find` (C92), updates (C93), inserts, `find_one` and deletes (C105), cursors and
  their sorting (C106). Not: aggregation pipelines; base64, UTF-8 and the text of keys that are not texts are parameters.

* `components/sql/parser`: the scanner (C100), the lookahead of `base_yylex` and the list of statements (C107). Not: `U&` texts and names, the grammar of a statement (bison tables).
* The paths of files in `services/disk`, `services/wal`, `core/b_plus_tree` and the set of directories of
  `integration/cpp/base_spaces.cpp` (C101, C102). Not: symbolic links, limits, missing rights.
* `services/dispatcher`: `update_catalog`, `execute_plan_delete_finish`, `get_schema` for collections without a declared schema, with the parts of
  `operator_insert`, `operator_delete`, `operator_update` and `operator_write_data` that it depends on (`DocSchema/Model`). Not: INSERT with a list of fields, upsert.
* `components/vector/arrow`: chunks out and in (C98) and schemas (C99). Not: decimals as data, maps, unions, views, run ends. Metadata
  of schemas are C113 (`Arrow/MetaModel`).

Not modelled at all: the grammar of SQL (generated code), logging and benchmarks.

## Where the code disagrees with a property

Each line is a proved theorem named `Cnn_..._fails` (or named in parentheses).

* C03: the length of a record is written in 16 bits; an operation of 64 KiB hides the rest of the log.
* C04: a crash right behind the length makes opening undefined (subtracting from a short read); torn
  records are delivered as empty entries.
* C07 (side): dropping a database is answered without any record in the log.
* C08: an acknowledged update is lost by a restart (memory is changed, the disk is not, and the log
  position is moved on); a repeated id: memory keeps the last, disk the first; the rest of a
  half-written batch is lost; a collection created and filled while both are pending loses the
  insert; nothing on disk means the log is not replayed; a second crash during the load loses records.
* C09: creating a collection in a missing database is answered with success; two concurrent
  creations of the same database are both answered with success.
* C10: a re-created database shows the documents of the dropped one; a dropped database is back
  after a restart.
* C11 (side): separators in names; a crash between writing and truncating invents databases.
* C12: second insertion of an entry at a root split is lost (`<` against `<=`); removing an absent
  entry reports success and miscounts; removing a missing key leaves a lock; flushing an emptied tree;
  more than 32766 leaves overflow a fixed buffer; file ids collide after a load.
* C13: removing an absent item changes the counters; `split_append` loses items in two windows;
  `merge` below or with overlap is wrong.
* C15 (note): the checksum is checked by an assertion only.
* C16: the second row of a key is lost at a root split.
* C17: a repeated `_id` inside a batch; containers are lost by key translation; a refused insert
  is answered with the whole collection.
* C18: limit 0 dereferences null; limits with a second collection apply to the scans.
* C20: missing fields, nulls, 128-bit numbers, a field on the right side (parameter 0 is used).
* C21: deleting a document with a shared value removes another document's entry; nulls; creating an
  index over documents without the field is undefined; stale entries after a repeated `_id`.
* C22: `not` without a child, a regular expression with a field on the right side (undefined); a
  missing field passes `>`; limits inside merges.
* C23: an unmatched left row loses the fields whose names the right side shares, `_id` included; a
  full join with an empty right side is undefined; its nulls carry the right side's names; an object
  over a scalar is undefined.
* C24: equal signed and unsigned numbers are in different groups, close doubles in one.
* C25: mixed kinds (`std::sort` without an order), unsigned against negative throws.
* C26: `max` with a document lacking the field gives nothing; null, booleans and texts in a sum end
  the process; the sum of nothing is undefined; unsigned sums from 2^56 change type; `avg` counts
  documents without the field.
* C27: 64-bit integers against doubles, chains of floats, NaN.
* C28: unsigned against signed, boolean against signed; 128-bit, timestamps, null and infinities
  are not equal to themselves; equality up to epsilon is not transitive.
* C30: an index beyond the end appends; index 2^32 is taken for 0; a failed move loses the node; the
  empty path throws.
* C31: object over value is undefined; deletion marks of nested objects stay visible.
* C32: a text or object equals every number; unsigned against negative throws; 1 against 1.5
  depends on the side; NaN equals every double.
* C33: signed non-negative integers come back unsigned; 128-bit integers are not written (the bytes
  are not a message); from 2^56 on the type is lost.
* C34: zero, false and the empty text are not assigned over missing fields or other kinds; 3 over 3.5
  is dropped; null is ignored; a refused assignment is reported as a modification; a nested `set` is
  not reported; a deduced side stays for later documents.
* C35: erasing loses older versions; inserting beside a node without versions throws; lists of
  children show dropped namespaces; iterators reach a freed node.
* C36: a field whose newest type is gone is hidden; append throws for names such as `abc` and `b`; a
  field whose name begins another one stays listed.
* C37: a reused savepoint keeps the old state; two added columns share id 0; a type changed twice
  dereferences null; an extended type removes the column's name; changes to a renamed or added
  column are lost; a retried commit applies nothing.
* C38: row 0 of a cleaned vector is not looked at; boundary of the lowest transaction.
* C39 (side): a refused delete leaves marks on earlier rows; undoing an append inside a vector
  leaves marks.
* C40: `set_valid` writes the whole word; `set_all_invalid` on an empty mask; `count_valid` with a
  ragged end; `slice_in_place` from an all-valid mask; `combine` reads too far; `resize` keeps stale
  bits; slices share rows.
* C41: a row before the first segment reads out of bounds.
* C42: unqualified, empty and dotted names; database and schema are swapped by the conversion.
* C44: a parameter as an operand comes back as a field; a place from the end comes back as 2^32-1; the
  second collection of a delete, the columns of a table, the condition of a join and the schema of a
  name are lost; a unary update dereferences null while being written, as does a filter without an
  expression; a chunk of columns cannot be written; number types as C33.
* C45: the second call of a split transfer goes to the first call's place.
* C46: `operator<` is not asymmetric for different unique identifiers.
* C47: overflow, zero divisors (undefined), mixed types (throw).
* C48: unsigned numbers from 2^56 on corrupt the type byte; uninitialised bytes above small values.
* C50: concurrent calls get each other's answers or a null pointer; concurrent sizes likewise.
* C51: `load()` can miss its wake-up; a second call with the same session makes the first wait for ever.
* C52: two threads that make sessions at the same time can get equal ones.
* C53: the answer of a table announces documents and throws when asked for them.
* C49: narrowing wraps; NaN and large doubles are undefined.
* C54: `5 < a` is translated as `a < 5`; NOT NOT; a missing field satisfies `>`, `<>` and NOT; a NULL
  constant is read as a column (undefined); an expression is compared as null; LIKE is a regular
  expression; 3000000001 and 0.1 are rounded to `float`; the 65537th constant gets the first one's number; a
  function inside AND/OR/NOT below the top is undefined.
* C55: a list of columns is DISTINCT and drops documents without one of them; GROUP BY and LIMIT are
  ignored; `count(a)` counts documents without `a`; aggregates over no document give no row; `count(*)`
  is undefined; a constant target throws; `sum(t.a)` sums a field `t`; ORDER BY a column that is not
  selected does not sort.
* C56: `ON r.b = l.a` reads `b` of the left and `a` of the right; a constant compared with a column of the right
  table is checked on the left document.
* C57: `DELETE FROM l USING r` without WHERE empties `l` also if `r` is empty; conditions as C54.
* C58: a later assignment of the same UPDATE reads the new value of an earlier one; `||` is the cube root,
  `<=` a shift; unary minus, NULL and a missing column on the right are undefined; assigning zero to a
  missing column does nothing.
* C59: rows without a 24-digit `_id` all get the null identifier, so only the last is stored and later
  INSERTs are refused; NULL and too many values are undefined; too few are accepted; 0.1 becomes a `float`,
  an expression null, a name a text.
* C60: the counter of generated identifiers has 24 bits; two processes started in one second generate the same
  identifiers.
* C62: more than 1024 ids of one row group (repetitions) overrun the buffer of the delete.
* C63: an update of a row is undefined behaviour (the merge of `update_segment.hpp:844-848` never advances) if rows
  of its block of 1024 rows were updated before, all with smaller ids.
* C64: filters compare the value stored in place of a NULL (0) and the values before an update; from the second
  row group on they take the position in the chunk for the row id, which is undefined behaviour.
* C65: fetching by id returns deleted rows.
* C67: `collection_t::scan` reads all row groups into one chunk; after the first call the chunk points into the table, so
  each row group is overwritten with the rows of the next one (collection.cpp:99-109, column_data.cpp:410-417).
* C68: a query on a table returns at most the rows of one block of 1024 rows (full_scan.cpp:74-82 scans once).
* C69: `DELETE` without a condition removes row 0 only, if no row was deleted before (the ids of a chunk are never set),
  and reports it once per row.
* C70: the operators on chunks read a NULL as 0, false or the empty text, and return it as such; `all_true` selects nothing;
  more than 1024 rows are written beyond the end; 2.5 is truncated for an integer column; a negative parameter for an unsigned
  column ends the process; a comparison of two columns takes parameter 0.
* C71: joins other than inner ones return no row; NULLs are equal; a parameter of another integer type throws; more than
  1024 pairs are written beyond the end.
* C72: the comparison for `std::sort` holds of equal rows, so every sort is undefined; it also exchanges ascending and
  descending.
* C73: an aggregate over no row gives no row; NULLs are zeros; two aggregates of one kind, or a key called like an aggregate,
  are undefined; a sum over 8 or 16 bits throws from the second row on; names given with AS are not used.
* C74: creating an index on a table takes over documents, of which a table has none (create_index.cpp:41), so queries through
  the index return none of the rows that were there; INSERT takes the keys of the index from the rows `row_start + i` of the
  inserted chunk (operator_insert.cpp:19-24), beyond its end from the second INSERT on; a DELETE that does not use the index
  removes the first entry with the key of a deleted row, which may be that of another row (single_field_index.cpp:42-44).
* C75: `DECIMAL(300, 2)` has width 44 (casts to a byte), a scale above the width is accepted; `INT[3][4]` is an array of three,
  `INT[]` one of 2^64-1; `BIT(8)` is `BIT`; `VARCHAR[3]` is accepted although `VARCHAR` is rejected; `tinyint.point` is a tinyint;
  `"numeric"(10, 2)` has no width; NOT NULL, DEFAULT, UNIQUE, PRIMARY KEY and IF NOT EXISTS are dropped without notice; table
  constraints and LIKE are read as columns (undefined); two columns may have one name.
* C76: `DROP TABLE a, b` drops `a` only; `CREATE TABLE a.b.c.d.e` makes a collection whose name is empty, DROP rejects that name;
  an index on an expression makes a string of a null pointer; UNIQUE and WHERE of an index are dropped; CREATE INDEX without a
  database is rejected although CREATE TABLE without one is not.
* C77: an index on disk is filled through `insert_many`, a message its agent does not handle (index_agent_disk.cpp:35-54), so
  documents that were there before the index are not found; a query replaces the entries in memory by what it found, so a
  later DELETE by another condition erases at `end()`; a query that overlaps a DELETE through the index looks up ids whose
  documents are gone; the notice that an insert is done takes away the waiting plan of the same session.
* C78: a DELETE that waits for the index on disk is never told to the disk (create_index.cpp:89-98 does not call
  `delete_document_impl`), so its documents are back after a restart, not reachable through the index; one document without
  the field makes the restart undefined.
* C79: names of indexes are global to the agents and local to the engines: a CREATE INDEX that is refused leaves an empty index
  that queries use, and creating it later is undefined; without a disk, creating an index twice is undefined; dropping one of two
  indexes on a field hides the other; DROP of a collection that had an index reads freed memory; it drops the indexes of
  collections of that name in all databases; a crash within DROP INDEX loses all other indexes; the file grows with each restart.
* C80: TIMESTAMP values can be neither written nor read (`set_value` throws); DECIMAL, HUGEINT, BLOB, INTERVAL and UUID columns have
  no size (undefined); a list of arrays grows with the wrong multiplier and reads past its buffer.
* C82: `copy` and `append` of an ARRAY column lose the elements, as the size of the type is 0 where the number of elements is meant;
  an ARRAY column that grows reads past its buffer; `reset` sets the capacity to 1024 whatever the columns have room for; a list
  column made with room for no row never grows (the doubling loop does not end).
* C83: the validity of a slice is a copy made when slicing: NULL written through a slice is not seen, a NULL row stays NULL; a
  struct is written at the row the indexes give for the row they give.
* C84: a cursor has pointers to the documents of the collection, so an UPDATE after a SELECT changes what the cursor reads
  (operator_update.cpp:77-90 changes documents in place), from the thread of the executor while the client reads (a data race,
  not modelled).
* C85: INSERT keeps the pointers of the client, and INSERT ... SELECT * those of the other collection: an UPDATE of one collection
  changes the other, and a client that changes a document it inserted changes the collection, even the `_id` of a document
  stored under another.
* C86: `INSERT INTO t (...) SELECT ...` without `_id` gives all rows the null id, so that one of them stays and every later one is
  refused silently; documents lacking a selected column are dropped; `_id` selected under another name does not give the
  id; with `SELECT *` the column list is ignored; functions are not counted, `INSERT INTO t (a) SELECT a, max(b) ...` is
  accepted and stores both.
* C87: `UPDATE ... FROM` evaluates the condition and the expressions on what earlier partners made of the document
  (operator_update.cpp:39-56): `SET a = r.b FROM r WHERE l.a = r.a` follows a chain of partners, `SET b = l.b + r.b` adds up all
  partners, and the document is reported once per partner. A column without its table is looked up where the first pair
  had it, for all pairs; a later document without it is read through null.
* C88: a handle to no document (after the last one, behind an index, a missing array or object, the documents a DELETE answers)
  cannot be told from a document: `document_is_valid` dereferences the null pointer like every other call. Walking an
  answer of table rows throws `std::out_of_range` out of an `extern "C"` function although `cursor_has_next` says true. -1 of
  8 bits is an unsigned long. (The header declares `cursor_Is_success`, the library defines `cursor_is_success`.)
* C89: `new char[sizeof(str)]` allocates the size of the string object, not of its text: any text of 40 bytes or more, any
  error message of 32 or more overflows the heap; texts end at their first zero byte.
* C90: a text of 4096 bytes or more is written to a block of its own but can never be read: `read_string_marker` copies eight
  bytes into a variable of four, and no code reads the block. The NULLs after such a text copy its offset and cannot be read
  either, nor can a run of rows that has one of them. Texts in updates of a table (views of memory of the caller) are not covered.
* C91: `None` writes no value: the field refers to whatever is written next, so `{"k": None}` reads back as `{"k": "k"}`
  if the value is evaluated before the key (as GCC does) and is outside the tape or another key otherwise
  (`C91_none_fails`). An integer beyond 64 bits ends the process, because the exception leaves a `noexcept` function
  (`C91_int_fails`).
* C92: `get_compare_type` ignores the first character of a word. So a field called `ball`, `call`, `many`, `xeq` ... is taken for an
  operator and the condition on it accepts every document (`C92_name_fails`); `delete_many({"call": 1})` deletes all.
  `$or` beside another entry at the root is turned into "and" (`C92_or_fails`); an alternative of `$or` with two entries is turned
  into two alternatives (`C92_alternative_fails`); `$not` at the root is dropped (`C92_not_fails`); a comparison with `None`
  never holds, and "not equal to None" always does (`C92_none_fails`); `$in` with a list asks for equality with all of it
  (`C92_in_fails`). From 65536 values on, the 16-bit numbers of parameters wrap and the first values are used again.
* C93: `$set` of 0, `False` or the empty text does not add the field if it is missing (`C93_zero_fails`); a dict or list as new
  value, and a `$set` that is no dict, dereference a null pointer (`C93_nested_is_ub`); other operators such as `$unset`, and updates
  without operators, are ignored silently (`C93_unset_fails`); a document added by `upsert` has neither the fields of the condition nor an
  `_id`, so that the next one replaces it (`C93_upsert_fails`).
* C94: a block allocated with "must not be destroyed" is thrown away when memory gets short, as if it had been allocated with the
  opposite, and pinning it throws (`C94_thrown_away_fails`); so a table larger than the limit loses its rows. Trying to pin such a block
  first throws away others. A resized buffer loses its last 8 bytes, because the number of bytes copied is the user's size, counted from the
  start of the header (`C94_resize_fails`; nothing in the code resizes a buffer that is in use).
* C95: texts and names are written between quotes without escaping: a quote or a control character makes text no reader accepts
  (`C95_quote_fails`, `C95_control_fails`), a backslash silently becomes another text (`C95_backslash_fails`). 64-bit integers are printed with
  `%i`/`%u`, which is undefined (`C95_int64_is_ub`) and on usual processors keeps the low 32 bits (`C95_int64_fails`). The text of the least
  double overflows its buffer by one byte (`C95_least_double_is_ub`). A `float` comes back as another number (`C95_float_fails`), 128-bit
  numbers and NaN do not come back (`C95_hugeint_fails`, `C95_nan_fails`), nor do documents more than 32 containers deep (`C95_depth_fails`).
* C96: copying arrays from vector to vector takes `type().size()`, which is 0 for arrays, for the number of elements: the elements are not
  copied. So a NULL list in front of a list of arrays in one batch stores zeros for the elements: `[[5]]` becomes `[[0]]`
  (`C96_null_list_of_arrays_fails`), and fetching single rows of lists of arrays or arrays of arrays gives zeros
  (`C96_fetch_list_of_arrays_fails`, `C96_fetch_array_of_arrays_fails`). A vector of more than 1024 arrays inside lists is resized with the room of the vector for the size of
  an array, reading behind the old memory (`C96_scan_many_arrays_is_ub`). Lists and arrays refuse updates; `revert_append` of an array column
  that does not start at row 0 uses a wrong row; both are outside of the model.
* C97: UPDATE on columnar tables. Without a condition all ids of the chunk are 0 (as C69), so only row 0 is updated; the first such
  UPDATE still reaches all rows, since SET writes into the segments the chunk points to. A second one, one that sets NULL and one of a column of
  texts change the first row only (`C97_second_update_fails`, `C97_update_null_fails`, `C97_update_text_fails`). An UPDATE of a row behind
  the rows updated before is undefined behaviour (`C97_update_behind_is_ub`, from C63). Right sides read the columns set before them
  (`C97_swap_fails`). UPDATE ... FROM on tables is not modelled: `operator_update` takes the types of the left chunk for those of the
  right one and updates with the whole left chunk but the ids of the matches only.
* C98: the Arrow interface. A chunk with an offset is read from its first row, with the NULL flags of the right rows
  (`C98_sliced_chunk_fails`); offsets of structs get lost below structs and inside lists (`C98_sliced_structs_fails`,
  `C98_list_of_sliced_structs_fails`). Sliced validity buffers are read one byte too far unless they are padded (`C98_unpadded_is_ub`).
  Columns with dictionaries follow a null pointer (`C98_dictionary_is_ub`: `add_dictionary` assigns its parameter to itself). Lists of
  arrays go beyond the memory when taken in and lose their elements when handed over (`C98_lists_of_arrays_is_ub`,
  `C98_array_in_list_fails`). Not modelled: decimals (the appender of decimals falls through into the one of strings), maps, unions,
  views, run ends, and who owns the buffers: only the first column keeps them alive.
* C99: Arrow schemas. Names and composed formats are copied into `std::make_unique<char>(n)`, one character: every column with a name,
  every field with a name, every array, decimal and map handed out writes beyond it (`C99_named_column_is_ub`,
  `C99_named_field_is_ub`, `C99_composed_format_is_ub`). Reading: "a", "a", "a_1" become "a", "a_1", "a_1_1", so a name that was
  unique changes (`C99_names_fails`).
* C100: the scanner of SQL. Integers from 2^31 to 2^63 - 1 become another number: 5000000000 is read as 705032704
  (`C100_large_integer_fails`; the check of scan.l:1190-1193 depends on `HAVE_LONG_INT_64`, which is defined nowhere). Names of 64 bytes or
  more are cut, so names that agree in 63 bytes are one name (`C100_long_name_fails`). A query ends at its first 0, so no text can have
  one (`C100_text_with_zero_fails`). An escape for the byte 0 (`E'a\0b'`) cuts the text off without an error
  (`C100_escaped_zero_fails`: the result of `pg_verifymbstr` is dropped).
* C101: files. Nothing checks names. An index named `base_index` has the files of the documents; dropping it removes them
  (`C101_base_index_fails`, `C101_shared_tree_fails`). A collection named `../x` is the directory of the database x
  (`C101_parent_fails`); one named by an absolute path is that directory, anywhere, and DROP removes it with all it contains
  (`C101_absolute_fails`). `a` with `b/c` and `a/b` with `c` are one collection (`C101_slash_fails`). A database named as a file
  of the engine cannot be stored (`C101_own_name_fails`).
* C102: instances. The paths are compared as texts, so `/a` and `/a/` are opened side by side (`C102_two_spellings_fails`,
  `C102_exclusive_fails`), and so are configurations with another main path and the same directories. The path is given back before the managers are destroyed
  (`C102_closing_fails`). If the constructor throws behind the check the path is never given back (`C102_failed_open_fails`).
* C103: answers. A drop that meets another request on the same collection or database ends the process: two drops
  (`C103_drops_fails`), a drop and a query on its way to the executor (`C103_drop_and_read_fails`), a dropped database and an insert on its way
  to the log (`C103_drop_database_fails`). All clients then wait for ever (`C103_fails`): the check of the catalog and the change of it
  are two messages apart.
* C104: schemas of collections. The schema does not follow an update (`C104_update_fails`), counts documents that were not stored (`C104_refused_insert_fails`,
  `C104_same_id_fails`), is taken from by the delete of another collection when two of them are on their way, as there is one place for the
  result of a delete (`C104_two_deletes_fails`), and is empty after a restart (`C104_restart_fails`, `C104_restart_delete_fails`). A field is not told of when the documents
  with its newest type are gone (`C104_hidden_fails`), and a document whose fields have names such as abc and b is stored and ends the process
  (`C104_names_end_fails`).
* C101: dropping the collection `.` removes all collections of its database (`C101_dot_fails`).
* C105: `delete_many` with a field called `call`, `many`, ... removes every document (`C105_call_fails`), with `$not` at the root the opposite of what is said
  (`C105_not_fails`); an insert that is refused because of its `_id` is answered with the `_id` of the first document of the collection, as if it had succeeded
  (`C105_refused_fails`).
* C106: in Python `cursor[i]` behind the end, reading from a cursor after a loop, an element of `list(cursor)`, showing a cursor without documents, and reading from the answer to
  a delete use a null pointer (`C106_index_is_ub`, `C106_after_loop_is_ub`, `C106_empty_is_ub`, `C106_deleted_is_ub`); `sort("k")` raises an exception
  (`C106_direction_fails`); the rows of a table are counted but cannot be visited (`C106_rows_fails`); three kinds of errors have an empty name
  (`C106_error_fails`).
* C107: of a text with several statements `execute_sql` executes the first and ignores the others without a word (`C107_second_fails`); a text without a statement -
  empty, blanks, comments, `;` - takes the front of an empty list (`C107_none_is_ub`, `C107_blank_is_ub`).
* C108: asking for the size of a collection that does not exist (`len` in Python) sends 0 and ends the process (`C108_missing_fails`), also after its database was
  dropped (`C108_dropped_database_fails`) or while another client drops it (`C108_drop_fails`); counting while the executor writes to the collection is a data race
  (`C108_write_is_ub`).
* C109: `collection_names` and `database_names` of Python list what was asked for through the same object, not what exists. A collection dropped through its own object
  stays listed (`C109_dropped_fails`), a second object of the same database lists nothing of the first (`C109_second_object_fails`), what a query creates is not
  listed (`C109_sql_fails`), after a new start nothing is (`C109_restart_fails`), and a collection asked for in a dropped database is listed though the creation came to
  nothing (`C109_database_gone_fails`, `C109_database_names_fails`).
* C110: a program that uses the C interface never loads what is stored: `otterbrix_create` does not send `load` and `otterbrix.h` has no function for it (nor do
  `make_otterbrix` and `execute_sql` of C++ by themselves). After any history no collection can be read (`C110_find_fails`, for every state; `C110_fails`). If it creates
  them anew it may store a document with an `_id` that is on the disk, is told it is stored, and a later start with `load` finds the older one (`C110_insert_lost_fails`).
* C111: `path_utils::glob` reads a pattern as the grammar says, for all patterns and names (`C111_glob`); these are its differences from the usual meaning. `[a-]` matches
  nothing (`C111_dash_fails`). `?` is one byte, not one character (`C111_utf8_fails`). Without `allow_question_mark` a `?` falls through to `[` (path_utils.cpp:65-71),
  so it opens a bracket (`C111_question_fails`); no caller in the repository passes `false`. `has_glob` does not count a backslash, which the matcher reads as an escape,
  so a name with a backslash does not match itself (`C111_itself_fails`).
* C112: `glob_files` does not find all that fits a pattern. In an absolute path the first part is never expanded, `/b*/x` finds nothing (`C112_absolute_fails`), nor does a
  pattern in the root (`C112_root_fails`, for every pattern and disk). `**/x` leaves out `x` in the directory of the process, while `a/**/x` includes `a/x`
  (`C112_crawl_fails`). Two `**` find nothing (`C112_two_crawls_fails`). A colon in the first part makes it a Windows drive (`C112_colon_fails`). With `~`, `home_directory`
  (local_file_system.cpp:170-180) returns a reference to a temporary if no home directory was set; this is read, not modelled.
* C113: metadata of Arrow schemas. Sizes are written as four bytes of an unsigned number and read as a signed one: a key of 2 GiB makes the reader throw
  (`C113_large_fails`). An option set to the empty text looks like one that is not set (`C113_empty_fails`). `non_canonical_type` drops the type and the vendor it is given
  (`C113_non_canonical_fails`). The reader has no size to check against, so a block shorter than its lengths say is read beyond its end (`C113_short_is_ub`). In the
  repository `type_from_schema` reads the metadata and does not use them (arrow_type.cpp:397), and nothing writes them.
* C114: the log id the disk notes. It is read from where the handle stopped reading before, so the second load of a program gets 0 (`C114_again_fails`), or the digits by
  which the id has become longer (`C114_tail_fails`), and the whole log would be played again. The new text is written over the old one in place: a stop in the middle of it
  mixes both, with 19 noted and 20 to be noted 29 is read (`C114_torn_fails`), an id never given, and the records up to it are not played again. Whether a write of a few
  bytes can stop half way depends on the file system; if it cannot, and ids grow, the id read is the old or the new one (`C114_stop_partial`). A read that reports an error
  is taken for a byte (file_handle.cpp:72-73), so `read_line` does not end; this is read, not modelled.
* C115: the file of indexes. A program that stops between the size of a new index and the end of its text leaves a record that is read at the next start: as zeros, which the
  deserializer takes for an array (`C115_real_zeros_is_ub`), or as what was written over and over again, because the positioned read does not move on
  (`C115_stop_text`); the exception this raises keeps all indexes from being loaded (`C115_real_throws_fails`). A stop within the size is harmless until another index is made:
  that one is then not found (`C115_later_fails`). Dropping an index empties the file first: a stop then loses the indexes not yet written again
  (`C115_drop_stop`, `C115_drop_stop_fails`; C79 says this for whole records).
* C116: comparing vectors. Two flat vectors of which the left one has no nulls and room for more rows than the right one are compared with a mask read beyond its end
  (`C116_shorter_is_ub`, from C40). If neither selection is asked for a null pointer is written through (`C116_neither_is_ub`); the only caller asks for both.
* C117: hashes of rows. A chunk with a column of 128-bit integers or intervals has no hash: `Invalid type for hash` (`C117_type_throws`, `C117_fails`). A chunk without
  columns reads its first one (`C117_no_columns_is_ub`). Columns of structures and of arrays of one size are not modelled.
* C118: slices and the caller's indexing. The slice of a flat column keeps a pointer to the array of the indexing it was made with (vector.cpp:258): if the caller writes
  other rows to it the slice shows these (`C118_reused`, `C118_reused_fails`), while columns that were slices or constants before keep their rows (`C118_slice_partial`).
* C119: vectors of plain values. Minus zero is written as zero, as it compares equal to zero (uvector.hpp:64-69, `C119_sign_fails`). The number of bytes is taken modulo
  2⁶⁴: 2⁶¹ elements of 8 bytes leave a vector without elements and no error (`C119_huge_fails`). A buffer without memory cannot grow without a `memcpy` from a null
  pointer, and `make_uvector` dereferences the end of an empty range (`C119_empty_is_ub`).
* C120: file systems. `open_file` puts the home directory before a relative path, `file_exists`, `remove_file` and `move_files` do not: a file saved under a relative name
  is not found, removed or moved under it (`C120_home_fails`, for every home but the directory of the process). That a system is disabled, or enabled again, is checked by
  assertions only: without them it is used as before (`C120_disabled_fails`). A system registered for a compression is never used (virtual_file_system.cpp:24-27), and
  `path_separator` is declared and not defined; these are read, not modelled.
* C121: buffers for Arrow. `push_back` counts values and `resize` counts bytes (arrow_buffer.hpp:65-83), so resizing after pushing overwrites what was pushed
  (`C121_fails`); nothing in the repository calls `push_back`. `malloc` and `realloc` are not checked; this is read, not modelled.

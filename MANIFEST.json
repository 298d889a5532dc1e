{
 "claims": [
  {
   "property": "C01",
   "status": "proved",
   "theorems": [
    "Ferret.Props.c01_bitvector_is_a_map",
    "Ferret.Props.c01_negative_index_undefined"
   ],
   "note": "Non-negative indices; negative index is undefined behaviour in the C code and in the model."
  },
  {
   "property": "C02",
   "status": "partial",
   "theorems": [
    "Ferret.Props.c02_algebra_is_pointwise",
    "Ferret.Props.c02_in_place_not",
    "Ferret.Props.c02_in_place_partial",
    "Ferret.Props.c02_zero_tail_results_are_maps_partial",
    "Ferret.Props.c02_violated_in_place",
    "Ferret.Props.c02_violated_mutate_ones_tail",
    "Ferret.Props.c02_violated_count_ones_tail"
   ],
   "note": "Fresh-result and/or/xor/not and in-place not are pointwise for all inputs. In-place and/or/xor is false in one case (witness proved), and ones-tail results misbehave under later mutation / count (witnesses proved)."
  },
  {
   "property": "C03",
   "status": "proved",
   "theorems": [
    "Ferret.Props.c03_eq_iff_same_bits"
   ],
   "note": ""
  },
  {
   "property": "C04",
   "status": "partial",
   "theorems": [
    "Ferret.Props.c04_scan_enumerates_partial",
    "Ferret.Props.c04_scan_from",
    "Ferret.Props.c04_violated_last_allocated_bit"
   ],
   "note": "True unless the last allocated bit is set: then the code reads one word past the allocation (witness proved)."
  },
  {
   "property": "C05",
   "status": "proved",
   "theorems": [
    "Ferret.Props.c05_finite_map",
    "Ferret.Props.c05_enumeration",
    "Ferret.Props.c05_lookup_is_last_set"
   ],
   "note": "All histories, any hash function and equality satisfying Laws (equivalence, equal keys hash equal); both lookup functions (h_lookup and h_lookup_ptr); probe termination by the full-cycle argument. Not modelled: freeing of keys and values, h_clone, allocation failure."
  },
  {
   "property": "C06",
   "status": "proved",
   "theorems": [
    "Ferret.Props.c06_ordered_set",
    "Ferret.Props.c06_no_duplicates",
    "Ferret.Props.c06_contents"
   ],
   "note": "All histories of the interface including merge and clear; the doubly linked list is modelled with pointers into a heap of entries, use of freed or NULL pointers is undefined. Not modelled: freeing of elements."
  },
  {
   "property": "C07",
   "status": "proved",
   "theorems": [
    "Ferret.Props.c07_keeps_greatest_k",
    "Ferret.Props.greatestAsc_unique",
    "Ferret.Props.c07_histories_refine_bag"
   ],
   "note": ""
  },
  {
   "property": "C08",
   "status": "proved",
   "theorems": [
    "Ferret.Props.c08_round_trip",
    "Ferret.Props.c08_wire_format",
    "Ferret.Props.c08_negative_offset"
   ],
   "note": "All values of their types, all histories, positions and buffer alignments, RAM and FS files. Offsets are unsigned as the interface documents; c08_negative_offset records what happens otherwise."
  },
  {
   "property": "C09",
   "status": "partial",
   "theorems": [
    "Ferret.Props.c09_streams_partial",
    "Ferret.Props.c09_block_past_end",
    "Ferret.Props.c09_block_past_end_fs",
    "Ferret.Props.c09_copy_bytes",
    "Ferret.Props.c09_write_to_partial",
    "Ferret.Props.c09_write_to_out_of_bounds"
   ],
   "note": "Block reads past the end of a RAM file return stale memory instead of raising EOF (proved by witness); everything else refines positional access."
  },
  {
   "property": "C10",
   "status": "partial",
   "theorems": [
    "Ferret.Props.c10_directory_partial",
    "Ferret.Props.c10_each",
    "Ferret.Props.c10_open_reader_unaffected",
    "Ferret.Props.c10_new_file_content",
    "Ferret.Props.c10_rename",
    "Ferret.Props.c10_rewrite_keeps_old_tail"
   ],
   "note": "Refinement of the whole directory interface (streams, names, reference counts, no use after free). Not full: the code does not truncate a file opened again for writing, so 'content last written' is false there (witness c10_rewrite_keeps_old_tail)."
  },
  {
   "property": "C100",
   "status": "partial",
   "theorems": [
    "Ferret.Props.c100_packed_reads_same_partial",
    "Ferret.Props.c100_failure_loses_segment",
    "Ferret.Props.c100_stale_file_read"
   ],
   "note": "Proved for all new segments, contents and pending files, while the compound file is shorter than 2^63 bytes. False after a failure: the separate files are queued for removal before the compound file is written, so an exception of the store while it is written leaves a listed segment whose files the next commit removes, and no reader opens it any more (c100_failure_loses_segment, for every segment; with the locks of the C library, left taken by the exception, the writer blocks instead; the Ruby binding has none). A longer file of the compound file's name is not cut (c100_stale_file_read), which opening a writer prevents by removing such files (C30)."
  },
  {
   "property": "C101",
   "status": "partial",
   "theorems": [
    "Ferret.Props.c101_own_streams_partial",
    "Ferret.Props.c101_whole_commands_partial",
    "Ferret.Props.c101_clone_race",
    "Ferret.Props.c101_compound_race",
    "Ferret.Props.c101_compound_race_error"
   ],
   "note": "Proved for every schedule for files in memory and for streams that have a file descriptor of their own: each thread sees what it would see alone and finishes. For clones and for members of a compound file it is false: clones share the descriptor's offset and members share one stream, and seeking and reading are two steps, so a thread silently gets bytes from another position (c101_clone_race, stale buffer bytes included) or of another file (c101_compound_race), or an IO error (c101_compound_race_error). For these it is proved when whole commands take turns. Reference counts of streams are not modelled."
  },
  {
   "property": "C102",
   "status": "partial",
   "theorems": [
    "Ferret.Props.c102_asked_of_its_index",
    "Ferret.Props.c102_totals",
    "Ferret.Props.c102_reported_can_be_asked_for",
    "Ferret.Props.c102_scan",
    "Ferret.Props.c102_past_the_end_partial",
    "Ferret.Props.c102_negative_undefined",
    "Ferret.Props.c102_no_searchers_undefined",
    "Ferret.Props.c102_function_given_other_searcher"
   ],
   "note": "Proved for all trees: answers by number, totals, what a search reports, scans. Refusing numbers no document has is false: for every negative number, and for every number if there are no searchers, the code calls an element before the array of searchers (c102_negative_undefined, c102_no_searchers_undefined; the Ruby binding passes the number on unchecked); past the end an index is asked past its own end, whose answer is not part of this claim. A function called for each hit is given the number in the whole but the searcher of the index, so it cannot use one with the other (c102_function_given_other_searcher). Page searches over nested searchers are not in this model (C34, C52 for one level)."
  },
  {
   "property": "C103",
   "status": "partial",
   "theorems": [
    "Ferret.Props.c103_kept_while_both_there_partial",
    "Ferret.Props.c103_nothing_left_partial",
    "Ferret.Props.c103_address_used_again_partial",
    "Ferret.Props.c103_threads_free_answer"
   ],
   "note": "Proved for all histories of one thread: answers, frees and what is left are those of the specification, through the tables being changed while they are freed. False for threads: the tables have no lock, and a second thread that also found nothing kept frees the answer of the first (c103_threads_free_answer). Reference counts of filters and readers and the hash table itself (C05) are not part of this model."
  },
  {
   "property": "C104",
   "status": "partial",
   "theorems": [
    "Ferret.Props.c104_streams_partial",
    "Ferret.Props.c104_plain_files",
    "Ferret.Props.c104_plain_lazy",
    "Ferret.Props.c104_packed_lazy"
   ],
   "note": "Holds for files of their own in any order, and for members of a compound file if its stream is closed last. Fails otherwise: members read through the compound file's stream without counting as its users (compound_io.c 155), so a document loaded lazily from a packed segment uses freed memory once the reader is closed (c104_packed_lazy)."
  },
  {
   "property": "C105",
   "status": "proved",
   "theorems": [
    "Ferret.Props.c105_freed_once",
    "Ferret.Props.c105_ends"
   ],
   "note": "If functions keep registering more without end, the cleanup does not end; c105_freed_once then says only that the array is not left. A function that calls the cleanup itself is not modelled."
  },
  {
   "property": "C11",
   "status": "partial",
   "theorems": [
    "Ferret.Props.c11_exclusive_partial",
    "Ferret.Props.c11_obtain_decides",
    "Ferret.Props.c11_fs_release_close_race",
    "Ferret.Props.c11_fs_is_locked_unlocks",
    "Ferret.Props.c11_refused_releases",
    "Ferret.Props.c11_ram_race"
   ],
   "note": "Mutual exclusion proved for every interleaving of clients that release/close only what they hold; false for the library's own use of locks (witnesses)."
  },
  {
   "property": "C12",
   "status": "partial",
   "theorems": [
    "Ferret.Props.c12_compound_partial",
    "Ferret.Props.c12_sub_stream",
    "Ferret.Props.c12_add",
    "Ferret.Props.c12_errors",
    "Ferret.Props.c12_stale_file"
   ],
   "note": "exact lengths and bytes for every member, any sequence of reads, seeks and clones, EOF past the end, other files untouched; fails when a longer file of the compound's name exists (witness)"
  },
  {
   "property": "C13",
   "status": "partial",
   "theorems": [
    "Ferret.Props.c13_decode",
    "Ferret.Props.c13_encode",
    "Ferret.Props.c13_monotone_partial",
    "Ferret.Props.c13_monotone_wrong"
   ],
   "note": "Proved for all bytes and all float bit patterns, against their IEEE value. Missing: order below the value of byte 1, where the code is not monotone (c13_monotone_wrong: the numbers from bits 384*2^21 on get byte 0, smaller positive ones get byte 1)."
  },
  {
   "property": "C14",
   "status": "proved",
   "theorems": [
    "Ferret.Props.c14_generation_read_back",
    "Ferret.Props.c14_current_generation",
    "Ferret.Props.c14_names_distinct",
    "Ferret.Props.c14_name_exists",
    "Ferret.Props.c14_norm_name",
    "Ferret.Props.c14_norm_names_distinct",
    "Ferret.Props.c14_segment_names",
    "Ferret.Props.c14_segments_names_distinct"
   ],
   "note": "Names as byte strings; a name that does not fit the 100-byte buffer is undefined behaviour in the model, excluded for bases up to 60 bytes by c14_name_exists"
  },
  {
   "property": "C15",
   "status": "proved",
   "theorems": [
    "Ferret.Props.c15_round_trip",
    "Ferret.Props.c15_refusals",
    "Ferret.Props.c15_truncated_partial"
   ],
   "note": "Field infos: adding fields in any order and writing then reading back gives the same fields, options and numbers; refused combinations; a truncated file is EOF or (documented) NULL dereference."
  },
  {
   "property": "C16",
   "status": "proved",
   "theorems": [
    "Ferret.Props.c16_round_trip",
    "Ferret.Props.c16_advance_norm_gen"
   ],
   "note": "Segment infos written to any directory are read back equal, whatever the directory held before."
  },
  {
   "property": "C17",
   "status": "partial",
   "theorems": [
    "Ferret.Props.c17_commit_atomic_partial",
    "Ferret.Props.c17_second_commit_lost",
    "Ferret.Props.c17_mixed_after_two_crashes",
    "Ferret.Props.c17_stop_crashes_reader"
   ],
   "note": "Atomic at every crash point for generation >= 1 with no left-over partial segments file; witnesses show it fails otherwise."
  },
  {
   "property": "C18",
   "status": "partial",
   "theorems": [
    "Ferret.Props.c18_round_trip_partial",
    "Ferret.Props.c18_lazy_partial",
    "Ferret.Props.c18_compress_ub",
    "Ferret.Props.c18_decompress_ub",
    "Ferret.Props.c18_lazy_wrong"
   ],
   "note": "Proved for all histories of field descriptions and documents, for reading whole and lazily, with any later table of fields. Missing: compressed data of 16348 bytes or more before or after compression (the loops around the compression library do not end, c18_compress_ub and c18_decompress_ub), and bytes of a compressed lazy field that start on a separator between two values (the separator is dropped, c18_lazy_wrong). The compression library is a parameter."
  },
  {
   "property": "C19",
   "status": "partial",
   "theorems": [
    "Ferret.Props.c19_field_partial",
    "Ferret.Props.c19_all_partial",
    "Ferret.Props.c19_all_wrong",
    "Ferret.Props.c19_long_term_ub"
   ],
   "note": "Proved for all histories and all fields of all documents. Missing: a field that stores offsets but has no terms makes the following vectors of the same document unreadable when all are read together (c19_all_wrong); a term of 255 bytes overflows the reader's buffer (c19_long_term_ub)."
  },
  {
   "property": "C20",
   "status": "proved",
   "theorems": [
    "Ferret.Props.c20_enumerator",
    "Ferret.Props.c20_lookup"
   ],
   "note": "Writer and reader of .tis/.tix/.tfx modelled function by function; any session of enumerator calls and any sequence of lookups returns exactly what was written. Skip offsets are meaningful only for doc_freq >= skip_interval (stale otherwise; the code does not use them then)."
  },
  {
   "property": "C21",
   "status": "proved",
   "theorems": [
    "Ferret.Props.c21_documents"
   ],
   "note": "Writing a segment's postings and the segment enumerator, for every segment, deletion set and skip interval; the multi-segment enumerator is C24. The skip buffer's ramo_write_to is modelled as appending bytes; it is undefined at exact multiples of 1024 (C09)."
  },
  {
   "property": "C22",
   "status": "partial",
   "theorems": [
    "Ferret.Props.c22_session_partial",
    "Ferret.Props.c22_small_interval_wrong",
    "Ferret.Props.c22_positions_seek_te_wrong"
   ],
   "note": "Any history of seek, seek_te, next, skip_to, read and positions equals a linear scan, for skip intervals of at least 3. Witnesses: skip intervals 1 and 2 miscount after skip_to; a positions enumerator given a term enumerator reads the positions of another term."
  },
  {
   "property": "C23",
   "status": "proved",
   "theorems": [
    "Ferret.Props.c23_enumerator",
    "Ferret.Props.c23_sorted_union",
    "Ferret.Props.c23_doc_freq"
   ],
   "note": "All segments that were written and opened, all field maps, all sequences of set_field/next/skip_to. Sub readers are segment readers (nested multi readers not modelled); frequencies do not overflow an int."
  },
  {
   "property": "C24",
   "status": "partial",
   "theorems": [
    "Ferret.Props.c24_session_partial",
    "Ferret.Props.c24_merged",
    "Ferret.Props.c24_absent_term_wrong",
    "Ferret.Props.c24_read_none_wrong",
    "Ferret.Props.c24_positions_wrong"
   ],
   "note": "All histories of seek, seek_te, next, skip_to, read and position over any list of written segments give the merged, shifted, live documents. Missing: seeking an absent term while a segment is current, reading 0 documents, seeking again with an enumerator of positions, and skip intervals below 3; on each the code is wrong (witnesses)."
  },
  {
   "property": "C25",
   "status": "proved",
   "theorems": [
    "Ferret.Props.c25_segment_of_document",
    "Ferret.Props.c25_document_of_segment",
    "Ferret.Props.c25_get_doc",
    "Ferret.Props.c25_negative_undefined",
    "Ferret.Props.c25_empty_index_undefined"
   ],
   "note": "every document number below the total, any segment sizes; numbers below zero, and any number on an index without segments, are undefined (witnesses)"
  },
  {
   "property": "C26",
   "status": "proved",
   "theorems": [
    "Ferret.Props.c26_deletions",
    "Ferret.Props.c26_enumerators",
    "Ferret.Props.c26_shared_subreader_stale"
   ],
   "note": "all histories of delete, undelete_all, commit, close/reopen and crash during a commit, any segments; witness: a reader made of other readers caches the number of documents"
  },
  {
   "property": "C27",
   "status": "partial",
   "theorems": [
    "Ferret.Props.c27_terms",
    "Ferret.Props.c27_session_partial",
    "Ferret.Props.c27_again",
    "Ferret.Props.c27_fields",
    "Ferret.Props.c27_read",
    "Ferret.Props.c27_norms",
    "Ferret.Props.c27_buffer_partial",
    "Ferret.Props.c27_buffer_usual",
    "Ferret.Props.c27_buffer_wrong"
   ],
   "note": "The merged files are shown to be exactly those written from the undeleted documents alone (postings, dictionary, stored fields, term vectors, norms), for any segments, deletions and number of segments, within the size limits of the formats. Partial: sm_cache_term (index.c 5976-5984) can overwrite the last index term too early, so with terms of about 254 bytes a term is lost from the merged dictionary (c27_buffer_wrong); c27_buffer_partial gives the condition under which it cannot, which c27_buffer_usual shows for terms up to 252 bytes. The terms theorem takes terms as values, the buffer theorem shows that this is what the writer then sees."
  },
  {
   "property": "C28",
   "status": "partial",
   "theorems": [
    "Ferret.Props.c28_commit_partial",
    "Ferret.Props.c28_anytime_partial",
    "Ferret.Props.c28_settings_partial",
    "Ferret.Props.c28_doc_count_partial",
    "Ferret.Props.c28_zero_buffer_ub",
    "Ferret.Props.c28_raise_buffer_ub",
    "Ferret.Props.c28_open_fails",
    "Ferret.Props.c28_doc_count"
   ],
   "note": "Proved for every history of add, delete, commit, optimize, settings and reopening with merge_factor at least 2, max_buffered_docs at least 1 and not raised while the writer is open, while documents times merge_factor is an int. Disproved: max_buffered_docs below 1 or raised while open writes norms out of bounds; an exception while a segment's files are opened leaves a segment without files, and after the next commit no reader opens; iw_doc_count counts deleted documents."
  },
  {
   "property": "C29",
   "status": "partial",
   "theorems": [
    "Ferret.Props.c29_optimize_partial",
    "Ferret.Props.c29_history_partial",
    "Ferret.Props.c29_hangs",
    "Ferret.Props.c29_commit_hangs",
    "Ferret.Props.c29_zero_ub",
    "Ferret.Props.c29_overflow_ub"
   ],
   "note": "Proved for every index and every merge_factor of at least 2. Disproved: the setting is not checked; with merge_factor 1 optimize and commit never end, with 0 or less optimize looks outside the segment list, and merge_factor squared may overflow an int."
  },
  {
   "property": "C30",
   "status": "partial",
   "theorems": [
    "Ferret.Props.c30_deleter_partial",
    "Ferret.Props.c30_defined",
    "Ferret.Props.c30_writer_open_after_crash_loses_index",
    "Ferret.Props.c30_orphaned_norms"
   ],
   "note": "Exact (keeps all referenced, removes all others an index makes) whenever the commit read is the newest segments file; after a crash it is not, and the deleter removes the only good segments file (witness)."
  },
  {
   "property": "C31",
   "status": "partial",
   "theorems": [
    "Ferret.Props.c31_snapshot_partial",
    "Ferret.Props.c31_deletions_partial",
    "Ferret.Props.c31_violated_undelete",
    "Ferret.Props.c31_violated_create"
   ],
   "note": "For every history of writer sessions (new segments, merges, deletions, undeletions, norms, commits, removals, crashes, recreated indexes) and every interleaving of the opening, a file of the taken commit is either not found or has the content it had at the commit, and the open stream keeps giving exactly those bytes from the RAM directory. Files are as the store sees them: what is made of the bytes is in C18-C25. Missing: a reader being opened by another process while documents are undeleted or the index is created anew can mix two commits (both witnessed, because names of deletion files and segments are reused). Data files are taken to be written only between the making of a segment and its commit; file descriptors of the OS are assumed to keep unlinked files."
  },
  {
   "property": "C32",
   "status": "partial",
   "theorems": [
    "Ferret.Props.c32_no_lost_update_partial",
    "Ferret.Props.c32_behind_is_refused",
    "Ferret.Props.c32_stale_stays_refused",
    "Ferret.Props.c32_refused_reader_overwrites"
   ],
   "note": "No commit overwrites a newer one in undisturbed histories; false after a refused change is retried (witness)."
  },
  {
   "property": "C33",
   "status": "proved",
   "theorems": [
    "Ferret.Props.c33_exact_page",
    "Ferret.Props.c33_no_scorer",
    "Ferret.Props.c33_invalid_paging",
    "Ferret.Props.c33_violated_page_overflow"
   ],
   "note": "Exact page, total and error branches of isea_search_w over any stream of matches; pages whose end overflows int are shown to reach signed overflow (undefined behaviour)."
  },
  {
   "property": "C34",
   "status": "proved",
   "theorems": [
    "Ferret.Props.c34_multi_search_is_union"
   ],
   "note": "msea_search_w over any sub-searchers equals ranking of the union with offset document numbers."
  },
  {
   "property": "C35",
   "status": "partial",
   "theorems": [
    "Ferret.Props.c35_unscored_scan_partial",
    "Ferret.Props.c35_multi_unscored_scan",
    "Ferret.Props.c35_violated_conjunction",
    "Ferret.Props.c35_limit_zero_overflow"
   ],
   "note": "Exact for queries without conjunctions (any nesting) and for the multi-searcher given exact sub-searchers; for a conjunction the scan can report a non-matching document (witness)."
  },
  {
   "property": "C36",
   "status": "partial",
   "theorems": [
    "Ferret.Props.c36_boolean_logic_partial",
    "Ferret.Props.c36_violated_nested_conjunction"
   ],
   "note": "Exact for all queries whose conjunctions are not below another conjunction, a MUST_NOT or an optional part; the code is wrong otherwise (witness)."
  },
  {
   "property": "C37",
   "status": "partial",
   "theorems": [
    "Ferret.Props.c37_skip_consistent_partial",
    "Ferret.Props.c37_violated_conjunction",
    "Ferret.Props.c37_match_all_goes_back"
   ],
   "note": "All interleavings for queries without conjunctions; witness that a conjunction's jump is wrong."
  },
  {
   "property": "C38",
   "status": "proved",
   "theorems": [
    "Ferret.Props.c38_term_scorer"
   ],
   "note": "All posting lists and interleavings, including calls after exhaustion."
  },
  {
   "property": "C39",
   "status": "partial",
   "theorems": [
    "Ferret.Props.c39_exact_phrase_partial",
    "Ferret.Props.c39_boolean_partial",
    "Ferret.Props.c39_violated_same_place",
    "Ferret.Props.c39_violated_after_end"
   ],
   "note": "Proved for all phrases (any number of terms per position), all indexes, every order qsort may give equal elements, and every sequence of next and skip_to up to the first unsuccessful one: the documents are exactly those where the phrase occurs and, when no position is twice in a document, the frequency is the number of places; also as leaves of boolean queries. False as stated: with the same position twice in a document the frequency depends on qsort's order of equal elements (c39_violated_same_place). Calling skip_to on an exhausted phrase scorer, or next after a failed first skip_to, is undefined (c39_violated_after_end)."
  },
  {
   "property": "C40",
   "status": "partial",
   "theorems": [
    "Ferret.Props.c40_repeated_partial",
    "Ferret.Props.c40_three_partial",
    "Ferret.Props.c40_exact",
    "Ferret.Props.c40_violated_single"
   ],
   "note": "Disagreement: \"a a\"~1 matches a document with a single a (c40_violated_single: sphsc_check_repeats is given i - 1). Proved for every index, phrase with repeated terms, slop and way of using the scorer: k phrase positions with different offsets stand on at least ceil(k/2) different words of every document found, so a term three times in the phrase is there at least twice (c40_three_partial), and the phrase is within the slop. Exact phrases need all k (c40_exact). Missing: k words for sloppy phrases, which is false."
  },
  {
   "property": "C41",
   "status": "proved",
   "theorems": [
    "Ferret.Props.c41_wildcard"
   ],
   "note": ""
  },
  {
   "property": "C42",
   "status": "partial",
   "theorems": [
    "Ferret.Props.c42_prefix",
    "Ferret.Props.c42_prefix_no_field",
    "Ferret.Props.c42_wildcard_partial",
    "Ferret.Props.c42_long_prefix",
    "Ferret.Props.c42_fuzzy",
    "Ferret.Props.c42_range"
   ],
   "note": "Prefix, fuzzy and range expansion are exact; a wildcard whose literal prefix has 255 bytes or more overflows a buffer (c42_long_prefix)."
  },
  {
   "property": "C43",
   "status": "partial",
   "theorems": [
    "Ferret.Props.c43_typed_range_partial",
    "Ferret.Props.c43_stale",
    "Ferret.Props.c43_uninitialised"
   ],
   "note": "Exact when every scanned term begins with a number; otherwise stale or uninitialised values decide (witnesses)."
  },
  {
   "property": "C44",
   "status": "proved",
   "theorems": [
    "Ferret.Props.c44_fuzzy"
   ],
   "note": "Rounding of the final division is not modelled; the allowed maximum is any function of the length."
  },
  {
   "property": "C45",
   "status": "partial",
   "theorems": [
    "Ferret.Props.C45_first_partial",
    "Ferret.Props.C45_again_nothing",
    "Ferret.Props.C45_skip_to",
    "Ferret.Props.C45_twice",
    "Ferret.Props.C45_last_word"
   ],
   "note": "The code disagrees: the scorer goes through the cached bit vector from where the last scorer left it, so every search of the same reader after the first returns nothing (C45_again_nothing, for all filters and sequences; C45_twice). Proved: the first search of each reader returns the filter's documents (C45_first_partial), skip_to is repeatable (C45_skip_to). With max_doc a multiple of 32 from 128 on and the last document matching, the scan reads beyond the bit vector (C45_last_word)."
  },
  {
   "property": "C46",
   "status": "partial",
   "theorems": [
    "Ferret.Props.C46_highlight_partial",
    "Ferret.Props.C46_compressed",
    "Ferret.Props.C46_empty",
    "Ferret.Props.C46_overlap"
   ],
   "note": "Proved for highlighting a whole stored field that is not compressed, with forward offsets within the text. The code disagrees for compressed fields: the buffer is allocated for the compressed length and overflows (C46_compressed); an empty text raises (C46_empty); overlapping tokens raise (C46_overlap). Excerpts (num_excerpts given) and the choice of matches are not modelled."
  },
  {
   "property": "C47",
   "status": "partial",
   "theorems": [
    "Ferret.Props.C47_compact_partial",
    "Ferret.Props.C47_breaks_partial",
    "Ferret.Props.C47_compact_none",
    "Ferret.Props.C47_compact_scores"
   ],
   "note": "Proved for every non-empty list of ranges and every sorting of it, for both compactions: in order, disjoint, same positions; with breaks, also the scores. The code disagrees for no ranges: it reports one range, in memory never written (C47_compact_none). matchv_compact counts the first range twice and drops the score of a range that extends another (C47_compact_scores)."
  },
  {
   "property": "C48",
   "status": "partial",
   "theorems": [
    "Ferret.Props.c48_limit_partial",
    "Ferret.Props.c48_one_more",
    "Ferret.Props.c48_each_value",
    "Ferret.Props.c48_untokenized"
   ],
   "note": "The limit is exceeded by one term, and by one more for each further value (the test comes after the posting is added); untokenized fields have no limit (witnesses). Proved: exactly which tokens are kept, at most the limit plus one per value, and all if there are no more than the limit."
  },
  {
   "property": "C49",
   "status": "partial",
   "theorems": [
    "Ferret.Props.c49_tokens_partial",
    "Ferret.Props.c49_terms_partial",
    "Ferret.Props.c49_mb_lower_ub",
    "Ferret.Props.c49_mb_standard_ub",
    "Ferret.Props.c49_mb_standard_partial",
    "Ferret.Props.good_utf8"
   ],
   "note": "All texts: analyzers of the whitespace, letter and non-tokenizers with any filters (under stated laws of the locale, the stemmer and the mapper) give tokens of less than 255 bytes and never write outside of a buffer; so does every term of every document, unless an untokenized value has exactly 255 bytes. Disagreements: multi-byte lower case may write a zero at text[255] (c49_mb_lower_ub), so may the multi-byte standard tokenizer (c49_mb_standard_ub), and an untokenized value of 255 bytes overflows readers' buffers (c62_long_term_ub, c19_long_term_ub). The legacy tokenizer's own overflows are in C89."
  },
  {
   "property": "C50",
   "status": "partial",
   "theorems": [
    "Ferret.Props.c50_add_partial",
    "Ferret.Props.c50_all",
    "Ferret.Props.c50_deleted"
   ],
   "note": "Proved if the other index has no deletions. Disproved: with deletions the deleted documents are there again, for every index."
  },
  {
   "property": "C51",
   "status": "partial",
   "theorems": [
    "Ferret.Props.c51_exclusive_partial",
    "Ferret.Props.c51_second_refused_partial",
    "Ferret.Props.c51_failed_open_unlocks",
    "Ferret.Props.c51_is_locked_unlocks",
    "Ferret.Props.c51_refused_reader_changes_anyway"
   ],
   "note": "Holds up to the first refused attempt or index_is_locked call; false after (witnesses)."
  },
  {
   "property": "C52",
   "status": "partial",
   "theorems": [
    "Ferret.Props.c52_sorted_page_partial",
    "Ferret.Props.c52_session_partial",
    "Ferret.Props.c52_multi_partial",
    "Ferret.Props.c52_violated_byte_across_indexes",
    "Ferret.Props.c52_violated_unknown_field_auto",
    "Ferret.Props.c52_violated_search_after_failure",
    "Ferret.Props.c52_violated_auto_mixed",
    "Ferret.Props.c52_violated_auto_shared",
    "Ferret.Props.c52_violated_nan"
   ],
   "note": "Proved for one index (any sort, AUTO included, any history of sorted searches) and for several indexes. Missing, with witnesses: BYTE fields across indexes are compared by their place in their own index; AUTO on an unknown field dereferences NULL; after a sort by an unknown field raised, the field index mutex stays locked and the next sorted search hangs; AUTO looks at the first term only, so mixed fields read an unset variable; over several indexes the first one decides the type for all; a NaN breaks the order of other values."
  },
  {
   "property": "C53",
   "status": "partial",
   "theorems": [
    "Ferret.Props.c53_map_partial",
    "Ferret.Props.c53_unique",
    "Ferret.Props.c53_whole_partial",
    "Ferret.Props.c53_untouched_partial",
    "Ferret.Props.c53_not_longest",
    "Ferret.Props.c53_long_pattern_ub",
    "Ferret.Props.c53_uncompiled_ub",
    "Ferret.Props.c53_dynamic_ub"
   ],
   "note": "Whatever mappings are given, of patterns up to 384 bytes, the compiled mapper replaces, reading left to right, the longest of the patterns that end first, with the replacement last given for it, copies everything else, and cuts the result to the buffer; the result is unique. Disagreements: it is the first pattern to end that is replaced, not the longest from the left (c53_not_longest); a pattern of 512 bytes overflows the array of states (c53_long_pattern_ub); mapping after an addition without compiling uses freed memory (c53_uncompiled_ub); mulmap_dynamic_map drops the result of erealloc and has no room for the final zero, so is undefined on every text without a match (c53_dynamic_ub)."
  },
  {
   "property": "C54",
   "status": "partial",
   "theorems": [
    "Ferret.Props.c54_array_partial",
    "Ferret.Props.c54_no_removal_partial",
    "Ferret.Props.c54_remove_ub",
    "Ferret.Props.c54_remove_wrong",
    "Ferret.Props.c54_empty_wrong"
   ],
   "note": "Proved for every history of set, get, push, pop, unshift, shift, remove and delete, for every value of uninitialised memory: each call gives what the list of values says and touches only allocated cells, except: removing an element when all but one of the allocated cells are used reads one cell past the allocation (array.c 103: one element too many is moved), for every such array; pop and shift of an empty array run below it."
  },
  {
   "property": "C55",
   "status": "partial",
   "theorems": [
    "Ferret.Props.c55_pool_partial",
    "Ferret.Props.c55_large_wrong"
   ],
   "note": "Proved for every history of requests no larger than a chunk, writes to blocks and resets: blocks lie inside allocated chunks, are pairwise disjoint and keep their contents. A request larger than the chunk size gets a block that ends outside its chunk (mempool.c 34-46), in every state."
  },
  {
   "property": "C56",
   "status": "partial",
   "theorems": [
    "Ferret.Props.c56_hash_partial",
    "Ferret.Props.c56_defined",
    "Ferret.Props.c56_neg_zero",
    "Ferret.Props.c56_or_near",
    "Ferret.Props.c56_filtered_ub"
   ],
   "note": "Proved for every pair of queries of any nesting: found equal implies the same hash, when no boost of a term or minimum similarity is -0.0 and no SpanOrQuery inside a span query meets a SpanNearQuery. Disagreements: 0.0 equals -0.0 but its bits are hashed (c56_neg_zero); span queries compare clauses without comparing their kinds, so SpanFirst(SpanOr) equals SpanFirst(SpanNear) with another hash (c56_or_near); FilteredQuery sets neither hash nor eq, so hashing or comparing one calls NULL (c56_filtered_ub)."
  },
  {
   "property": "C57",
   "status": "partial",
   "theorems": [
    "Ferret.Props.c57_searched",
    "Ferret.Props.c57_atomic_partial",
    "Ferret.Props.c57_warm_partial",
    "Ferret.Props.c57_answered_partial",
    "Ferret.Props.c57_violated_fields",
    "Ferret.Props.c57_violated_first",
    "Ferret.Props.c57_violated_table"
   ],
   "note": "Proved: for every dictionary, lookups made one at a time by any number of threads search exactly the field given by c57_searched, so every disciplined history (all histories of one thread, all histories in one field) is answered right; once one lookup in a field has been made, every interleaving of lookups in it by any number of threads is answered right, each within four steps of its thread. The code violates the rest: the field of the reader is shared while enumerators are per thread, so a thread that returns to a field another thread asked for last searches its old field; a first lookup that is interrupted after its enumerator is made searches no field; and the table of index terms is tested outside the mutex and published before it is filled. Threads reading one file descriptor are modelled in C101; the array of enumerators is not modelled."
  },
  {
   "property": "C58",
   "status": "partial",
   "theorems": [
    "Ferret.Props.c58_boolean_score_partial"
   ],
   "note": "Exact arithmetic, for the queries of C36."
  },
  {
   "property": "C60",
   "status": "partial",
   "theorems": [
    "Ferret.Props.c60_boost_kept_partial",
    "Ferret.Props.c60_wildcard_loses_boost"
   ],
   "note": "Prefix queries and wildcard-free patterns keep the boost; wildcard queries lose it (proved for every boost). Fuzzy and range rewriting likewise create queries of boost 1."
  },
  {
   "property": "C61",
   "status": "partial",
   "theorems": [
    "Ferret.Props.c61_terms_from_partial",
    "Ferret.Props.c61_empty_term_loses_segment"
   ],
   "note": "Holds unless the start term is empty and some segment has the empty term: then that segment is lost entirely (witness). The code tests curr_term[0] != 0 for 'found'."
  },
  {
   "property": "C62",
   "status": "partial",
   "theorems": [
    "Ferret.Props.c62_found_partial",
    "Ferret.Props.c62_vectors_partial",
    "Ferret.Props.c62_norms",
    "Ferret.Props.c62_stale_offsets",
    "Ferret.Props.c62_long_term_ub"
   ],
   "note": "Proved end to end (adding, inverting, flushing, reading back postings with positions, term vectors and norms) for texts shorter than 255 bytes and positions that do not go back where offsets are stored. Witnesses: offsets of an earlier document shown if positions go back; a 255-byte untokenized value overflows the reader's term buffer. Deletions and merging are other properties."
  },
  {
   "property": "C63",
   "status": "partial",
   "theorems": [
    "Ferret.Props.c63_whitespace",
    "Ferret.Props.c63_letter",
    "Ferret.Props.c63_non",
    "Ferret.Props.c63_mb_partial",
    "Ferret.Props.c63_mb_lower_partial",
    "Ferret.Props.c63_runs_unique",
    "Ferret.Props.c63_positions",
    "Ferret.Props.c63_invalid_doubled",
    "Ferret.Props.c63_cut_character"
   ],
   "note": "Exactly the maximal runs, for all texts and all locales, with offsets, positions and the cut to 254 bytes; multi-byte ones for texts that are properly encoded. Disagreements: after a badly encoded byte mb_next_char gives the next character twice (c63_invalid_doubled); a multi-byte token may be cut within a character (c63_cut_character). The standard tokenizer is another property."
  },
  {
   "property": "C64",
   "status": "partial",
   "theorems": [
    "Ferret.Props.c64_stop",
    "Ferret.Props.c64_stop_places",
    "Ferret.Props.c64_lower",
    "Ferret.Props.c64_stem",
    "Ferret.Props.c64_mapping_partial",
    "Ferret.Props.c64_hyphen_partial",
    "Ferret.Props.c64_mb_lower_partial",
    "Ferret.Props.c64_hyphen_stale",
    "Ferret.Props.c64_hyphen_empty_ub",
    "Ferret.Props.c64_hyphen_empty"
   ],
   "note": "Stop, lower-case and stem filters for all streams (the stemmer is any function); mapping for patterns up to 384 bytes; hyphens for tokens that are not empty; multi-byte lower case for results of less than 255 bytes. Disagreements: filter_reset does not reset a hyphen filter, so parts of an earlier text appear in the next (c64_hyphen_stale); a hyphen filter reads outside of an empty token (c64_hyphen_empty_ub)."
  },
  {
   "property": "C65",
   "status": "partial",
   "theorems": [
    "Ferret.Props.c65_scan",
    "Ferret.Props.c65_until_partial",
    "Ferret.Props.c65_covers_partial",
    "Ferret.Props.c65_words",
    "Ferret.Props.c65_violated_ends",
    "Ferret.Props.c65_violated_cut",
    "Ferret.Props.c65_violated_url"
   ],
   "note": "Disagreement: a URL whose match is left with nothing once the protocol is cut (\"file:///c\") is an empty token, which std_next takes for the end: all later words are lost (c65_violated_ends). The action that cuts the last character of a URL sets a variable that is never cleared when the match is given up, so other tokens lose their last character, and URLs with a path lose the last character of the path (c65_violated_cut, c65_violated_url). Proved: every scan of every text ends, is within the text and skips no letters or digits; tokens cover any text up to an empty match, and all of a text without colons; exact words for texts with plain separators."
  },
  {
   "property": "C66",
   "status": "partial",
   "theorems": [
    "Ferret.Props.c66_same_partial",
    "Ferret.Props.c66_found_partial",
    "Ferret.Props.c66_self",
    "Ferret.Props.c66_term_prefix",
    "Ferret.Props.c66_or_near",
    "Ferret.Props.c66_typed_range",
    "Ferret.Props.c66_limits",
    "Ferret.Props.c66_cast_ub"
   ],
   "note": "Proved for every pair of queries of any nesting: found equal implies asking the same when no clause of a span query meets one of another kind with the same layout and no typed range filter meets an untyped one; asking the same implies found equal, without NaNs and FilteredQueries. Disagreements: SpanOr of a term equals SpanOr of a prefix (c66_term_prefix), SpanOr equals SpanNear inside a span query (c66_or_near), a constant score query over a RangeFilter equals one over a TypedRangeFilter (c66_typed_range), limits on expansions are not compared and max_clause_cnt is compared with itself (c66_limits), other pairs of span clauses are read as the wrong struct (c66_cast_ub)."
  },
  {
   "property": "C67",
   "status": "partial",
   "theorems": [
    "Ferret.Props.c67_sloppy_phrase_partial",
    "Ferret.Props.c67_scores_partial",
    "Ferret.Props.c67_boolean_partial",
    "Ferret.Props.c67_violated_later_offset",
    "Ferret.Props.c67_violated_one_position",
    "Ferret.Props.c67_violated_repeats"
   ],
   "note": "Proved for every index, every phrase of two or more positions without repeated terms that begins at offset 0, every slop, every walk of next and skip_to up to the first unsuccessful call, and every order qsort gives equal elements: exactly the documents where the phrase occurs within the slop; the shortest match scored is the narrowest window; also as clauses of boolean queries. Disagreements: with a first offset above 0 (phq_add_term_abs) a document with the exact phrase is missed (c67_violated_later_offset); with repeated terms an exact occurrence is missed and next and skip_to disagree (c67_violated_repeats); one position is a NULL dereference unless rewritten (c67_violated_one_position)."
  },
  {
   "property": "C68",
   "status": "partial",
   "theorems": [
    "Ferret.Props.c68_ascii",
    "Ferret.Props.c68_words",
    "Ferret.Props.c68_signed_partial",
    "Ferret.Props.c68_violated_letters",
    "Ferret.Props.c68_violated_overread",
    "Ferret.Props.c68_violated_space"
   ],
   "note": "Disagreement: the tables compare plain char with unsigned keys. Where char is signed (c/Makefile, the Ruby extension) no byte above 127 ever matches, so letters that are not ASCII are separators (c68_violated_letters). Where it is unsigned (c/Rakefile) the states inside a character take any byte, so a text that ends inside a character is read past its end, and a space after a lone first byte becomes part of a word (c68_violated_overread, c68_violated_space). Proved: for signed char any text, and for ASCII texts either way, the tokens are those of the ASCII scanner, with all that C65 says. Not proved: properly encoded texts with char unsigned."
  },
  {
   "property": "C69",
   "status": "partial",
   "theorems": [
    "Ferret.Props.c69_spans_partial",
    "Ferret.Props.c69_near_terms",
    "Ferret.Props.c69_near_or_crashes",
    "Ferret.Props.c69_or_near",
    "Ferret.Props.c69_near_nothing_crashes",
    "Ferret.Props.c69_near_itself",
    "Ferret.Props.c69_near_misses"
   ],
   "note": "Disagreement: a near with an 'or' after its first clause, or without clauses, reads the top of an empty queue or a clause that is not there (c69_near_or_crashes, c69_near_nothing_crashes); a term near itself matches each single occurrence (c69_near_itself); when clauses are longer than a position, a text that is near enough may be missed (c69_near_misses). Proved: for all other queries the spans are in order and what the query asks for; for near over terms nothing is missed. Not modelled: readers of several segments, highlighting."
  },
  {
   "property": "C70",
   "status": "partial",
   "theorems": [
    "Ferret.Props.c70_span_search_partial",
    "Ferret.Props.c70_term",
    "Ferret.Props.c70_skip_partial",
    "Ferret.Props.c70_boolean_partial",
    "Ferret.Props.c70_and_loses",
    "Ferret.Props.c70_not_reports",
    "Ferret.Props.c70_unscored_twice",
    "Ferret.Props.c70_lands_unscored"
   ],
   "note": "Disagreement: after next the scorer has already moved its spans to the following document, so a jump to that document misses it, and a jump that lands after its target leaves freq at 0 and the scorer before the document it is on. So +span +span loses documents (c70_and_loses), a MUST_NOT span does not exclude (c70_not_reports), a search without scores reports a document twice (c70_unscored_twice), and a landing after the target scores no spans (c70_lands_unscored). Proved: searches with a span query alone, boolean queries that never jump with a span clause, and the first jump to a document that has spans. The float freq is the list of the lengths added up; sim_sloppy_freq is taken to be above zero."
  },
  {
   "property": "C71",
   "status": "partial",
   "theorems": [
    "Ferret.Props.c71_marks_partial",
    "Ferret.Props.c71_marked_iff",
    "Ferret.Props.c71_other_field",
    "Ferret.Props.c71_no_span",
    "Ferret.Props.c71_apart_reads_unwritten",
    "Ferret.Props.c71_near_absent",
    "Ferret.Props.c71_near_absent_index",
    "Ferret.Props.c71_multi_reads_past"
   ],
   "note": "Proved for queries that have a span in the document, without multi-term clauses, and whose near clauses have their terms in the document. The code breaks the property otherwise: without a span (c71_no_span) it reads a range never written; with a near clause whose term is not in the document (c71_near_absent) and with multi-term clauses (c71_multi_reads_past) it reads positions that are not there."
  },
  {
   "property": "C72",
   "status": "partial",
   "theorems": [
    "Ferret.Props.c72_history_partial",
    "Ferret.Props.c72_flushed_partial",
    "Ferret.Props.c72_empty_never_refreshed",
    "Ferret.Props.c72_stale_delete_lost",
    "Ferret.Props.c72_stale_delete_raises",
    "Ferret.Props.c72_auto_flush_keeps_lock",
    "Ferret.Props.c72_refused_add_lost"
   ],
   "note": "Proved for histories in which no lock is refused, alone or (with check_latest and a non-empty index) with other writers if index_delete_term is not called on an out-of-date reader. False otherwise (witnesses): a reader of an index without segments never notices commits of others; index_delete_term through an old reader silently deletes nothing or raises; with auto_flush index_delete_term keeps the lock; a refused index_add_doc removes the lock of the other writer and a later one is lost."
  },
  {
   "property": "C73",
   "status": "partial",
   "theorems": [
    "Ferret.Props.c73_unique_partial",
    "Ferret.Props.c73_replaced_partial",
    "Ferret.Props.c73_missing_field_replaces",
    "Ferret.Props.c73_no_field_adds",
    "Ferret.Props.c73_race_loses_both"
   ],
   "note": "Proved for key fields that are untokenized, single-valued and in every document, when no lock is refused. False otherwise (witnesses): a document that lacks one key field replaces one that has it; one that lacks the only key field is added each time; with two key fields another writer can come between, then both documents are gone."
  },
  {
   "property": "C74",
   "status": "partial",
   "theorems": [
    "Ferret.Props.c74_in_bounds",
    "Ferret.Props.c74_words_kept",
    "Ferret.Props.c74_balanced_partial",
    "Ferret.Props.c74_phrases_partial",
    "Ferret.Props.c74_unchanged",
    "Ferret.Props.c74_last_slash",
    "Ferret.Props.c74_slash_in_phrase",
    "Ferret.Props.c74_escape_undone",
    "Ferret.Props.c74_gap_not_escaped"
   ],
   "note": "In bounds and words kept for every text; unchanged where nothing is to be cleaned. Matched quotes and parentheses for every text that does not end in a backslash escaping nothing and has no escaped backslash inside quotes; escaped phrases for every text without backslashes inside quotes. The code violates the full claim: a backslash at the end escapes the parenthesis appended ((abc\\ becomes (abc\\)), an escaped backslash inside quotes loses one backslash and the other escapes the closing quote, an escaped special character inside quotes loses its escape (\"a\\(b\" becomes \"a(b\"), and an escaped < before > inside quotes becomes the mark of a gap."
  },
  {
   "property": "C75",
   "status": "partial",
   "theorems": [
    "Ferret.Props.c75_token_partial",
    "Ferret.Props.c75_word",
    "Ferret.Props.c75_escaped",
    "Ferret.Props.c75_keywords_not_escaped",
    "Ferret.Props.c75_escaped_star_wild",
    "Ferret.Props.c75_colons_overflow",
    "Ferret.Props.c75_keywords_read",
    "Ferret.Props.c75_signs_read"
   ],
   "note": "Progress and bounds for every text that has no two colons side by side or is shorter than 255 characters; words as written for all words given by pieces (characters for themselves, escaped characters, pairs of colons). The code violates the full claim: a pair of colons written at characters 255 and 256 of a word steps over the test for the end of the buffer (it tests for equality), so that everything after is written behind the buffer; keywords stay keywords when every letter is escaped; in a word with a wild card an escaped star is a wild card too. Keywords and signs (-, !, +, &&, ||) are read as what they say, behind any blanks."
  },
  {
   "property": "C76",
   "status": "partial",
   "theorems": [
    "Ferret.Props.c76_safe_partial",
    "Ferret.Props.c76_sound_partial",
    "Ferret.Props.c76_bar_after_gap",
    "Ferret.Props.c76_slop",
    "Ferret.Props.c76_long_word",
    "Ferret.Props.c76_range_leaves_fields",
    "Ferret.Props.c76_and_after_or",
    "Ferret.Props.c76_pattern_limit",
    "Ferret.Props.c76_pattern_overflow",
    "Ferret.Props.c76_pattern_untokenized"
   ],
   "note": "Proved for all tame texts (words of at most 253 characters, no | behind >, numeric slops): the parser ends within 20 turns per character, without undefined behaviour; every query is the meaning of a tree written with exactly the tokens. Disproved otherwise by witnesses: \"<>|f\" reads before the phrase's positions; \"a b\"~x uses an unset slop; a 255-character word followed by another word is read after being freed; a range out of order inside a field clause leaves the field stack, and the next parse (or, with handle_parse_errors, this one) fails an assertion. AND binds no tighter than OR: a OR b AND c demands only c. A pattern of 254 characters that is put in lower case makes the parser write one byte outside of its buffer; with 253 it does not."
  },
  {
   "property": "C77",
   "status": "partial",
   "theorems": [
    "Ferret.Props.c77_read_partial",
    "Ferret.Props.c77_typed_partial",
    "Ferret.Props.c77_one_meaning_partial",
    "Ferret.Props.c77_fuzzy_takes_word"
   ],
   "note": "Proved for every tree that is tame and in order (C76), has no fuzzy word without similarity right before a word, and nests less than about ten thousand places of the parser stack. Disagreement with the code: a word behind w~ is taken as its similarity even behind a blank, so it is not searched for (c77_fuzzy_takes_word)."
  },
  {
   "property": "C78",
   "status": "partial",
   "theorems": [
    "Ferret.Props.c78_fields_partial",
    "Ferret.Props.c78_word",
    "Ferret.Props.c78_fuzzy",
    "Ferret.Props.c78_phrase_partial",
    "Ferret.Props.c78_place",
    "Ferret.Props.c78_wild",
    "Ferret.Props.c78_range",
    "Ferret.Props.c78_pattern_follows_other_field",
    "Ferret.Props.c78_range_follows_other_field",
    "Ferret.Props.c78_choice_follows_other_field",
    "Ferret.Props.c78_star_is_everything"
   ],
   "note": "Code disagrees: patterns and range bounds lower-cased for one field stay lower-cased for the fields after it (t|k:A* asks for a* in the untokenized k), and the words of a one-place phrase \"the|X\" are replaced by the first field's tokens for the fields after it; f:* becomes the query for all documents, with or without the field. Missing: phrases with words that the analyzer splits or stacks."
  },
  {
   "property": "C79",
   "status": "partial",
   "theorems": [
    "Ferret.Props.c79_search",
    "Ferret.Props.c79_post",
    "Ferret.Props.c79_filtered",
    "Ferret.Props.c79_scorer",
    "Ferret.Props.c79_bits",
    "Ferret.Props.c79_history_partial",
    "Ferret.Props.c79_undeleted_stays_hidden",
    "Ferret.Props.c79_filtered_null",
    "Ferret.Props.c79_constant_score_reports_deleted"
   ],
   "note": "Filtered searches and filtered queries report exactly the hits of the query that pass, in order, with their scores; the bits of a query filter are exact; over any history of deletions every filtered search is exact although the bits are computed once. Violated: after undelete_all the kept bits hide documents that are back; a filtered query over a query for which no scorer is made calls a NULL scorer; a constant-score query over a filter used before reports documents deleted since. Not modelled: explanations (fqw_explain ignores the filter), the boost of a filtered query (ignored by the code). Missing: conjunctions below conjunctions (C36)."
  },
  {
   "property": "C80",
   "status": "partial",
   "theorems": [
    "Ferret.Props.c80_structured_partial",
    "Ferret.Props.c80_ends_once",
    "Ferret.Props.c80_stack",
    "Ferret.Props.c80_finally_once",
    "Ferret.Props.c80_catchall",
    "Ferret.Props.c80_finally_meant",
    "Ferret.Props.c80_finally_never_ends",
    "Ferret.Props.c80_case_meant",
    "Ferret.Props.c80_case_never_ends",
    "Ferret.Props.c80_finally_skipped"
   ],
   "note": "Proved for every program that runs smoothly (Spec.smooth, computed along the documented meaning): the machine of contexts and jumps leaves the marks the documentation says and ends as it says, only so, and gives the stack of blocks back; a cleanup part runs once. Missing because the code disagrees: (1) a block inside a XFINALLY or XCATCHALL part that lets an exception out makes xpop_context raise into the context although it is in its last part, which is begun again, for ever if it raises again (c80_finally_never_ends); (2) a case part that raises a code it catches is begun again for ever (c80_case_never_ends); (3) the FINALLY part of TRY ... ENDTRY is not run when the exception is not caught or not handled, contrary to the documentation of except.h (c80_finally_skipped). Not modelled: RETURN_EARLY, message texts (a RAISE that is ignored in a cleanup part overwrites the static buffer the pending message lives in). In the library: sis_write's cleanup part closes a stream that is NULL if creating it failed, and in its second block a stream closed already."
  },
  {
   "property": "C81",
   "status": "partial",
   "theorems": [
    "Ferret.Props.c81_open_while_committing_partial",
    "Ferret.Props.c81_ends",
    "Ferret.Props.c81_still_ends",
    "Ferret.Props.c81_first_commit_unreadable",
    "Ferret.Props.c81_reader_crashes",
    "Ferret.Props.c81_version_of_unfinished"
   ],
   "note": "Proved for directories with a commit of generation 1 or more and a writer that removes the segments file before (the deleter): whatever the interleaving, the reader gets a whole commit that was the newest at some moment of the round that found it, no error, and n rounds without an end mean that (n-1)/2 commits were finished meanwhile; in a still directory at most 16 rounds whatever it holds. Missing because the code disagrees: while the second commit of an index (generation 1) is written the index cannot be opened, since generation 0 is never fallen back to (c81_first_commit_unreadable); a reader that sees the segments file cut just within the head of the field infos crashes (c81_reader_crashes); sis_read_current_version reads only 12 bytes, so is_latest says a reader is stale on behalf of a commit that is not finished and may never be (c81_version_of_unfinished). Reading a file is one access; opening the segments themselves (ir_open) is not part of the run."
  },
  {
   "property": "C82",
   "status": "partial",
   "theorems": [
    "Ferret.Props.c82_explained_partial",
    "Ferret.Props.c82_constant_matches_all",
    "Ferret.Props.c82_constant_prohibited",
    "Ferret.Props.c82_constant_prohibited_found",
    "Ferret.Props.c82_filter_left_out",
    "Ferret.Props.c82_absent_field",
    "Ferret.Props.c82_no_norms",
    "Ferret.Props.c82_out_of_range"
   ],
   "note": "Explanation = score for hits and zero for other live documents, with exact arithmetic, for boolean queries of terms and all documents with positive boosts and norms. The code disagrees with the English statement: constant-score queries are explained as matching every document (csw_explain gives the value in both branches), so a query prohibiting one (ranges become such) explains all its hits with zero; fqw_explain leaves the filter out; bw_explain counts clauses without a scorer in the coordination factor; a required clause scoring zero (field without norms) is taken as not matching; document numbers out of range read outside the norms. Missing: phrase, multi-term and span leaves over existing fields, rounding."
  },
  {
   "property": "C83",
   "status": "partial",
   "theorems": [
    "Ferret.Props.c83_repeated_partial",
    "Ferret.Props.c83_boost_grows",
    "Ferret.Props.c83_scores_drift",
    "Ferret.Props.c83_shared",
    "Ferret.Props.c83_prohibited_grows",
    "Ferret.Props.c83_boost_shown"
   ],
   "note": "Proved for every history of searches with queries of unshared objects and positive boosts in which no boosted one-clause boolean query holds an unboosted innermost one. The code violates the full statement: a search with ((a))^2 multiplies the boost of a again every time (c83_boost_grows, c83_scores_drift), a clause object shared by two boosted queries gets both boosts (c83_shared), a query that only prohibits keeps the clause a search added (c83_prohibited_grows), and the boosts a user reads change (c83_boost_shown). Rounding, reference counts and the clause limit are not modelled."
  },
  {
   "property": "C84",
   "status": "partial",
   "theorems": [
    "Ferret.Props.C84_excerpts_partial",
    "Ferret.Props.C84_long_match",
    "Ferret.Props.C84_long_match_lost",
    "Ferret.Props.C84_untagged"
   ],
   "note": "The code does not do it for a run of matching positions whose text is longer than an excerpt: as first match it makes an excerpt that ends before it begins, and the match before the first is read (C84_long_match); as a later one it is not shown (C84_long_match_lost). Expanding excerpts can show matches without tags (C84_untagged). Compressed fields, empty texts and offsets that go back are excluded as in C46."
  },
  {
   "property": "C85",
   "status": "partial",
   "theorems": [
    "Ferret.Props.C85_marks_partial",
    "Ferret.Props.C85_words_for_numbers",
    "Ferret.Props.C85_no_parts",
    "Ferret.Props.C85_one_part",
    "Ferret.Props.C85_moved",
    "Ferret.Props.C85_repeated_word"
   ],
   "note": "Proved for all term vectors in order and all queries whose typed ranges meet no word of the length of a number, and whose phrases have parts. The code disagrees: a typed range reads a variable without value for a word as long as the bounds from which no number can be read (C85_words_for_numbers); a phrase without parts reads outside of an array (C85_no_parts); a sloppy phrase with one part uses a NULL pointer (C85_one_part); a sloppy phrase all of whose parts are moved forward is not marked (C85_moved); one word is marked for two parts of a sloppy phrase, which a search does not find (C85_repeated_word)."
  },
  {
   "property": "C86",
   "status": "partial",
   "theorems": [
    "Ferret.Props.c86_text_partial",
    "Ferret.Props.c86_format",
    "Ferret.Props.c86_format_end",
    "Ferret.Props.c86_near_over",
    "Ferret.Props.c86_infinite",
    "Ferret.Props.c86_hits"
   ],
   "note": "The text of every query with finite boosts, words at the places of its phrases and at most 39 clauses in near-span queries is the specified one and all buffers suffice (c86_text_partial); formats are written out (c86_format). The code violates the property otherwise: every near-span query with 40 or more clauses overruns its buffer (c86_near_over: spannq_to_s counts no commas, q_span.c 1995-2020), a term query with an infinite boost gets no terminating zero (c86_infinite: dbl_to_s returns without writing, global.c 138-167), the text of search results with a hit reads freed memory (c86_hits: td_to_s drops what estrcat returns, search.c 209-220), and a format ending in a lone % is read past its end (c86_format_end)."
  },
  {
   "property": "C87",
   "status": "partial",
   "theorems": [
    "Ferret.Props.c87_round_partial",
    "Ferret.Props.c87_to_s_partial",
    "Ferret.Props.c87_text_tells_partial",
    "Ferret.Props.c87_one_clause",
    "Ferret.Props.c87_fuzzy_then_word",
    "Ferret.Props.c87_not_escaped",
    "Ferret.Props.c87_demands",
    "Ferret.Props.c87_same_place",
    "Ferret.Props.c87_shifted_phrase"
   ],
   "note": "The text of every query in ReadsBack (terms, phrases, prefixes, patterns, fuzzy words, ranges, boolean queries of two or more clauses nested up to 1600 deep, with words that need no escapes and that the analyzer keeps) is parsed to exactly that query (c87_round_partial, with to_s itself in c87_to_s_partial), so texts tell such queries apart (c87_text_tells_partial). The code violates the property otherwise: single clauses lose their sign or gain everything (c87_one_clause), a word behind a fuzzy word becomes its similarity (c87_fuzzy_then_word), words are not escaped (c87_not_escaped), and words at one place of a phrase that were added one by one are read as one word (c87_same_place: phq_to_s writes &, q_phrase.c 965-1066, which the parser has no rule for)."
  },
  {
   "property": "C88",
   "status": "partial",
   "theorems": [
    "Ferret.Props.c88_search",
    "Ferret.Props.c88_opened",
    "Ferret.Props.c88_prefix_partial",
    "Ferret.Props.c88_wildcard_partial",
    "Ferret.Props.c88_boolean_partial",
    "Ferret.Props.c88_explain_partial",
    "Ferret.Props.c88_violated_no_terms"
   ],
   "note": "Proved for a segment's dictionary written and opened (C20), every list of terms and every sequence of calls with targets not negative; scores under exact addition. Partial: prefix and wildcard queries only when no more terms match than they may expand to (C42) and without the empty term; boolean scores when every clause has a term in its field; explanations for queries with at least one term, because explaining a query without terms over an existing field writes before the beginning of a buffer (c88_violated_no_terms). Readers of several segments are C23, C24."
  },
  {
   "property": "C89",
   "status": "partial",
   "theorems": [
    "Ferret.Props.c89_ascii_partial",
    "Ferret.Props.c89_mb_partial",
    "Ferret.Props.c89_words",
    "Ferret.Props.c89_sign_first_ub",
    "Ferret.Props.c89_scheme_ub",
    "Ferret.Props.c89_slashes_ub",
    "Ferret.Props.c89_acronym_ub"
   ],
   "note": "Disagreements: a text that begins with a mark and a digit may make it read the byte before the text (c89_sign_first_ub); 300 letters before ://, 256 slashes after a colon and acronyms of 257 letters overflow a buffer of 256 bytes (c89_scheme_ub, c89_slashes_ub, c89_acronym_ub). Proved for texts with a blank among any 257 bytes that do not begin with a mark and a digit: safe, tokens are parts of the text in order, every letter and digit is in one (single-byte); and exact tokens for all lists of words of nine kinds. Multi-byte: that letters are covered is missing."
  },
  {
   "property": "C90",
   "status": "partial",
   "theorems": [
    "Ferret.Props.c90_same_partial",
    "Ferret.Props.c90_each",
    "Ferret.Props.c90_close_unlocks",
    "Ferret.Props.c90_touch_cuts",
    "Ferret.Props.c90_touch_errors",
    "Ferret.Props.c90_touch_denied",
    "Ferret.Props.c90_length_missing",
    "Ferret.Props.c90_clear_keeps",
    "Ferret.Props.c90_count_skips",
    "Ferret.Props.c90_long_paths",
    "Ferret.Props.c90_lock_lost",
    "Ferret.Props.c90_shared_partial",
    "Ferret.Props.c90_close_race",
    "Ferret.Props.c90_count_race"
   ],
   "note": "Proved for names of index files and locks, histories that touch only absent files and ask lengths only of present ones, and calls that open and close stores one after the other. False beyond: touching an existing file cuts it on disk only (c90_touch_cuts), a failed touch is not reported (c90_touch_denied, c90_touch_errors), the length of an absent file differs (c90_length_missing), other files are not cleared on disk (c90_clear_keeps) nor counted when their names begin with a byte above 127 (c90_count_skips), long paths are cut so that all names are one file (c90_long_paths), closing a store removes the locks of others (c90_close_unlocks, c90_lock_lost), and a store is freed while another thread has it (c90_close_race, c90_count_race)."
  },
  {
   "property": "C91",
   "status": "partial",
   "theorems": [
    "Ferret.Props.c91_found_partial",
    "Ferret.Props.c91_none_missed",
    "Ferret.Props.c91_doc_freq",
    "Ferret.Props.c91_excluded_found",
    "Ferret.Props.c91_scores_differ",
    "Ferret.Props.c91_clause_dropped",
    "Ferret.Props.c91_refused"
   ],
   "note": "Proved for queries whose patterns are in no clause that prohibits: the only other outcome is STATE_ERROR. The code departs from the English property: a pattern in a prohibited clause lets documents through that the query excludes (c91_excluded_found), scores depend on the vocabularies of other searchers and duplicate clauses are dropped (c91_scores_differ, c91_clause_dropped), and a query of more than 1024 optional words is refused (c91_refused). Not here: limits on the number of terms of patterns, boosts."
  },
  {
   "property": "C92",
   "status": "partial",
   "theorems": [
    "Ferret.Props.c92_no_use_after_free_partial",
    "Ferret.Props.c92_counts_partial",
    "Ferret.Props.c92_all_freed_partial",
    "Ferret.Props.c92_double_free",
    "Ferret.Props.c92_leak_full",
    "Ferret.Props.c92_leak_refused",
    "Ferret.Props.c92_search_adds_clause"
   ],
   "note": "For boolean queries with coordination nothing is used after it is freed, counts are right and everything is freed unless an exception was raised. False otherwise: bq_rewrite copies the similarity pointer of a query without coordination, which is then freed twice; bq_add_query to a full query and a refused search leak; searching a query of prohibited clauses adds a clause to it. Missing: MultiSearcher, that rewriting ends."
  },
  {
   "property": "C93",
   "status": "partial",
   "theorems": [
    "Ferret.Props.c93_norms_partial",
    "Ferret.Props.c93_unchecked",
    "Ferret.Props.c93_stale",
    "Ferret.Props.c93_not_cleared",
    "Ferret.Props.c93_freed",
    "Ferret.Props.c93_span_null"
   ],
   "note": "Proved for readers of one index, any number of segments, any history of set, read, commit and open. False otherwise: ir_set_norm does not check document numbers; mr_set_norm_i (index.c 4885) clears the cache of the reader's field number instead of its own; mr_get_norms_into does not clear memory for readers without the field; setting a norm frees the array a running search reads; span queries dereference a null pointer for fields without norms in an index of one segment."
  },
  {
   "property": "C94",
   "status": "partial",
   "theorems": [
    "Ferret.Props.c94_fields",
    "Ferret.Props.c94_terms_partial",
    "Ferret.Props.c94_doc_freq_partial",
    "Ferret.Props.c94_norms_partial"
   ],
   "note": "Proved for any number of indexes with one segment each. Missing: indexes with several segments, whose readers are themselves readers of several, and reading of documents by a term (C24 applies to the map that is opened, but is not restated)."
  },
  {
   "property": "C95",
   "status": "partial",
   "theorems": [
    "Ferret.Props.c95_norms_guarded_partial",
    "Ferret.Props.c95_delete_while_writing",
    "Ferret.Props.c95_delete_loses_commit",
    "Ferret.Props.c95_commit_keeps_others"
   ],
   "note": "False in the code for deletions and undeletions: mr_delete_doc_i calls the reader of the index without acquiring its write lock, so that a document is deleted while a writer is open, and the commit of a reader that is out of date overwrites what was committed. Proved for setting norms. A commit leaves what other readers set to be committed by them."
  },
  {
   "property": "C96",
   "status": "partial",
   "theorems": [
    "Ferret.Props.c96_streams_partial",
    "Ferret.Props.c96_own_tokens_partial",
    "Ferret.Props.c96_hyphen_copy_ub",
    "Ferret.Props.c96_hyphen_copy_writes",
    "Ferret.Props.c96_hyphen_reset",
    "Ferret.Props.c96_stemmer_ub",
    "Ferret.Props.c96_mapping_late_ub",
    "Ferret.Props.c96_mapping_shared"
   ],
   "note": "c96_streams_partial: every program that the memory-free specification allows (making, wrapping, copying, resetting, asking, per-field analyzers, references given up in any order) prints what the specification says, uses nothing freed, and frees all. c96_own_tokens_partial: a stream of an analyzer gives the tokens of its own text whatever happens to others and to the analyzer. The code violates the property: a hyphen filter copied within a token keeps a pointer to the token of the original and reads freed memory when the original is given up (c96_hyphen_copy_ub) or writes to the token of the original (c96_hyphen_copy_writes); reset within a token it gives parts of the text before (c96_hyphen_reset); a stem filter for an unknown algorithm is made and undefined when asked (c96_stemmer_ub); adding a mapping to one stream makes the others undefined (c96_mapping_late_ub) or changes what they give (c96_mapping_shared). Not covered: filters put over a stream that was given a text, per-field analyzers of per-field analyzers, running out of memory."
  },
  {
   "property": "C97",
   "status": "partial",
   "theorems": [
    "Ferret.Props.c97_documents_partial",
    "Ferret.Props.c97_symbols",
    "Ferret.Props.c97_two_documents_ub",
    "Ferret.Props.c97_shared_text_ub",
    "Ferret.Props.c97_text_cut",
    "Ferret.Props.c97_add_array_raises",
    "Ferret.Props.c97_add_string_leaks"
   ],
   "note": "Proved for all programs that keep to the rules of docRun (use what is there, free it once, fewer than 2^29 texts in a field, printed texts shorter than 2^31). The code disagrees with the property: index_add_array with two or more texts always raises, because all become fields of the same name (ind.c 272-275), proved for every index and all texts; index_add_string leaves the copy of its text in memory, since df_new does not own data; doc_to_s cuts fields at a NUL; a field in two documents or a text owned twice is freed twice."
  },
  {
   "property": "C98",
   "status": "partial",
   "theorems": [
    "Ferret.Props.c98_copy_memory_partial",
    "Ferret.Props.c98_copy_disk_partial",
    "Ferret.Props.c98_foreign_lost",
    "Ferret.Props.c98_hidden_lost",
    "Ferret.Props.c98_long_cut",
    "Ferret.Props.c98_long_fails",
    "Ferret.Props.c98_changed_meanwhile",
    "Ferret.Props.c98_removed_meanwhile"
   ],
   "note": "The English property is false of the code: a file of 2^32 bytes and more is cut silently and one of 2^31 bytes and more cannot be copied, since copy_files keeps the length in an int (c98_long_cut, c98_long_fails, for all such files); which names are left out differs between stores: in memory all that begin with ferret-, on disk those that end in .lck and those that begin with a character up to / (c98_foreign_lost, c98_hidden_lost); no lock is held, so a store changed meanwhile is copied as it never was, or an error is raised (c98_changed_meanwhile, c98_removed_meanwhile). Proved for all histories with shorter files: the copy is the directory without the files that begin with ferret- (memory), or without its locks (disk, with the names of C90), and the original is as before."
  },
  {
   "property": "C99",
   "status": "partial",
   "theorems": [
    "Ferret.Props.c99_history_partial",
    "Ferret.Props.c99_delete_term",
    "Ferret.Props.c99_lookup",
    "Ferret.Props.c99_blind_enumeration",
    "Ferret.Props.c99_undelete_ub"
   ],
   "note": "The English property is false of the code: an enumeration copies the pointer to the deleted documents of each segment when it is opened, so one opened while a segment has no deletions gives documents deleted afterwards (c99_blind_enumeration), and one opened while it has some uses freed memory after undelete_all (c99_undelete_ub). Proved for all histories: exactly which documents enumerations give otherwise; lookups and deletions by term are right in all of them (c99_lookup, c99_delete_term)."
  }
 ]
}

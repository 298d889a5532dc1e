{"id": "C01", "title": "Bit vector is a map from index to bit", "statement": "After any sequence of set, unset and clear calls on a bit vector, get(i) returns the value most recently written at i (or the default 0 if none), for every index i including those past the end, the reported count equals the number of set bits, and no call touches memory outside the allocated words.", "quantifier": "every finite sequence of set/unset/clear calls with arbitrary indices, every queried index", "why_tests_cant": "the number of histories and index/word-boundary/capacity-growth combinations is unbounded", "anchors": ["c/include/bitvector.h: frt_bv_set_value, frt_bv_get", "c/src/bitvector.c: bv_new_capa, bv_clear"]}
{"id": "C02", "title": "Bit vector boolean algebra is pointwise", "statement": "and/or/xor/not of bit vectors return a vector whose bit at every index (including indices past the end of either operand, where a negated vector continues with ones) is the boolean combination of the operands' bits.", "quantifier": "all pairs of bit vectors of any sizes and tail modes, all indices", "why_tests_cant": "sizes and tails are unbounded; the in-place variants additionally alias an operand", "anchors": ["c/include/bitvector.h: FRT_BV_OP, frt_bv_not_i, frt_bv_and/or/xor/not(_x)"]}
{"id": "C03", "title": "Bit vector equality and hash agree with contents", "statement": "Two bit vectors compare equal exactly when get returns the same value on every index, and equal vectors have equal hashes, whatever their histories and sizes.", "quantifier": "all pairs of bit vectors built by the public operations", "why_tests_cant": "quantifies over all pairs of histories", "anchors": ["c/src/bitvector.c: bv_eq, bv_hash"]}
{"id": "C04", "title": "Bit vector scan enumerates exactly the set bits", "statement": "Starting from reset, repeatedly asking for the next set bit returns every set index exactly once in ascending order and then -1; scanning from i returns the least set index >= i.", "quantifier": "all bit vectors, all starting indices", "why_tests_cant": "unbounded sizes, word boundary cases", "anchors": ["c/include/bitvector.h: frt_bv_scan_next_from, frt_bv_scan_next"]}
{"id": "C05", "title": "Hash table behaves as a finite map", "statement": "After any sequence of set/delete/get calls a lookup returns the value of the last set not followed by a delete; the size is the number of live keys; the probe loop always terminates, including after arbitrarily many deletions and across every resize.", "quantifier": "all operation histories, all hash functions (including constant ones), all keys", "why_tests_cant": "termination and refinement hold for every history and collision pattern", "anchors": ["c/src/hash.c: h_lookup, h_set_ext, h_del, h_resize"]}
{"id": "C06", "title": "Hash set keeps insertion order without duplicates", "statement": "A hash set contains exactly the elements added and not removed, each once, enumerated in first-insertion order; add reports whether the element was already present.", "quantifier": "all histories of add/remove", "why_tests_cant": "unbounded histories", "anchors": ["c/src/hashset.c: hs_add_safe, hs_add, hs_rem, hs_exists"]}
{"id": "C07", "title": "Priority queue keeps the greatest k and pops in order", "statement": "Pushing any sequence of elements through bounded insert and then popping until empty returns, in ascending order, exactly the k greatest elements of the sequence.", "quantifier": "all input sequences, all capacities k, any total preorder", "why_tests_cant": "unbounded sequences and capacities", "anchors": ["c/src/priorityqueue.c: pq_push, pq_up, pq_down, pq_pop, pq_insert"]}
{"id": "C08", "title": "Integer codecs round-trip on streams", "statement": "Writing any sequence of fixed and variable length integers, strings and byte blocks to an output stream and reading it back with the same sequence of reads returns the same values, whatever the alignment with the internal buffers.", "quantifier": "all value sequences, all buffer alignments", "why_tests_cant": "value space and alignments are unbounded", "anchors": ["c/src/store.c: os_write_vint, os_write_vll, os_write_u32, is_read_vint, is_read_vll, is_read_string, os_write_byte"]}
{"id": "C09", "title": "Buffered output and input streams refine a byte array", "statement": "Any sequence of writes and seeks on an output stream leaves in the file exactly the bytes a direct positional write would, and any sequence of reads and seeks on an input stream returns exactly the file's bytes at the stream position, raising EOF only when reading past the end.", "quantifier": "all files, all operation sequences, all buffer boundary alignments", "why_tests_cant": "unbounded histories; buffering bugs show only at specific alignments", "anchors": ["c/src/store.c: os_write_bytes, os_flush, os_seek, is_refill, is_read_bytes, is_seek", "c/src/ram_store.c: ramo_flush_i, rami_read_i"]}
{"id": "C10", "title": "RAM directory behaves as a map of named files", "statement": "After any sequence of create/write, remove, rename, touch the directory reports as existing exactly the names it should, each file has the content and length last written, renaming overwrites the destination, and a file removed or replaced while open for reading can still be read unchanged through the open stream.", "quantifier": "all histories of directory operations, including open readers", "why_tests_cant": "unbounded histories", "anchors": ["c/src/ram_store.c: ram_touch, ram_exists, ram_remove, ram_rename, ram_new_output, ram_open_input"]}
{"id": "C11", "title": "At most one holder of a named lock", "statement": "However obtain and release calls by different clients interleave on a directory, at any time at most one client that obtained the lock and has not released it exists.", "quantifier": "all interleavings of lock operations of any number of clients", "why_tests_cant": "quantifies over schedules", "anchors": ["c/src/fs_store.c: fs_lock_obtain, fs_lock_release", "c/src/ram_store.c: ram_lock_obtain, ram_lock_release", "c/src/index.c: iw_open"]}
{"id": "C12", "title": "Compound file reproduces its member files", "statement": "Packing any collection of distinct files into a compound file and opening it presents each member with its exact length and bytes, and reading past a member's end raises EOF rather than leaking the next member.", "quantifier": "all collections of files of any sizes and names", "why_tests_cant": "unbounded collections", "anchors": ["c/src/compound_io.c: cw_close, cw_copy_file, open_cmpd_store, cmpdi_read_i"]}
{"id": "C13", "title": "Norm byte decode/encode is stable", "statement": "Encoding the decoded value of any norm byte gives that byte back; decoding is strictly monotone; encoding a positive number gives a byte next to it (the largest one above the range); a larger number does not get a smaller byte.", "quantifier": "all 256 bytes / all 2^32 float bit patterns", "why_tests_cant": "encode side ranges over all floats", "anchors": ["c/src/helper.c: float2byte, byte2float", "c/src/similarity.c: simdef_encode_norm, simdef_decode_norm"]}
{"id": "C14", "title": "Segment names and generation names are unambiguous", "statement": "Distinct (base, generation) pairs give distinct file names and a generation parsed back from a segments file name is the one written.", "quantifier": "all 64-bit generations", "why_tests_cant": "unbounded generations", "anchors": ["c/src/index.c: u64_to_str36, str36_to_u64, fn_for_generation, segfn_for_generation"]}
{"id": "C15", "title": "Field infos survive a write/read cycle", "statement": "Writing a field-info table and reading it back gives the same fields in the same order with the same numbers, boosts, and store/index/term-vector flags.", "quantifier": "all field-info tables", "why_tests_cant": "unbounded tables and names", "anchors": ["c/src/index.c: fis_write, fis_read, fis_add_field, fis_get_field"]}
{"id": "C16", "title": "Segment infos survive a write/read cycle", "statement": "Writing the segments file and reading it back gives the same segments, document counts, deletion and norm generations, compound flags, counter and version.", "quantifier": "all segment-info tables", "why_tests_cant": "unbounded tables", "anchors": ["c/src/index.c: sis_write, sis_read, si_write, si_read"]}
{"id": "C17", "title": "Commit is atomic under crashes", "statement": "If the process stops at any point while committing, the next open of the index sees exactly the state before the commit or exactly the state after it.", "quantifier": "every crash point within a commit, every prior index history", "why_tests_cant": "crash points times histories", "anchors": ["c/src/index.c: sis_write, sis_find_segments_file, sis_read_i, sis_curr_seg_file_name"]}
{"id": "C18", "title": "Stored fields round-trip", "statement": "For every document added, the document read back by its number has exactly the stored fields, in order, with exactly the stored data, and nothing from other documents.", "quantifier": "all document sequences, field configurations and data", "why_tests_cant": "unbounded documents and field data", "anchors": ["c/src/index.c: fw_add_doc, fr_get_doc, lazy document reading"]}
{"id": "C19", "title": "Term vectors round-trip", "statement": "The term vector read back for a document's field lists exactly the terms, frequencies, positions and offsets that were indexed for it.", "quantifier": "all documents and fields storing term vectors", "why_tests_cant": "unbounded postings", "anchors": ["c/src/index.c: fw_add_postings, fr_read_term_vector, fr_get_tv"]}
{"id": "C20", "title": "Term dictionary lookup is exact", "statement": "For any sorted set of terms written to a segment, seeking any term from any enumerator state positions on the first term >= the target, and get-by-exact-term reports a term iff it was written with exactly the recorded doc frequency and pointers.", "quantifier": "all sorted term lists, all index intervals, all targets, all previous enumerator states", "why_tests_cant": "binary search and prefix coding over unbounded lists, with stateful enumerators", "anchors": ["c/src/index.c: tw_add, tiw_add, sti_get_index_offset, ste_next, ste_scan_to, ste_get_term"]}
{"id": "C21", "title": "Postings round-trip", "statement": "The documents and frequencies enumerated for a term are exactly those written, in ascending order, minus deleted documents.", "quantifier": "all posting lists, all deletion sets", "why_tests_cant": "unbounded lists", "anchors": ["c/src/index.c: dw_flush, stde_next, stde_read"]}
{"id": "C22", "title": "Posting skip_to equals linear scan", "statement": "skip_to(target) positions on the first undeleted document at or after the target that lies after the current position, exactly as a linear scan would, with and without skip data, from any state, and positions read afterwards belong to that document.", "quantifier": "all posting lists, skip intervals, targets, histories of next/skip_to/read", "why_tests_cant": "unbounded lists and histories", "anchors": ["c/src/index.c: stde_skip_to, skip_buf_add, dw_flush"]}
{"id": "C23", "title": "Multi-segment term enumeration is a merge", "statement": "Enumerating the terms of a multi-segment reader yields the sorted union of the segments' terms without duplicates, each with the sum of the segments' document frequencies.", "quantifier": "any number of segments with any sorted term lists", "why_tests_cant": "unbounded", "anchors": ["c/src/index.c: mte_new, mte_next, mte_skip_to, tmte_cmp"]}
{"id": "C24", "title": "Multi-segment document enumeration is a concatenation", "statement": "Enumerating a term's documents over several segments yields each segment's documents shifted by the segment base, in ascending order; re-seeking to another term (present or absent) discards the previous term.", "quantifier": "all segment lists, all seek/next/skip_to histories", "why_tests_cant": "histories are unbounded", "anchors": ["c/src/index.c: mtde_seek, mtde_next, mtde_skip_to, mtde_read"]}
{"id": "C25", "title": "Document number to segment mapping", "statement": "A multi-reader maps every global document number to the unique segment containing it and back, with empty segments present.", "quantifier": "all segment size lists, all document numbers", "why_tests_cant": "unbounded", "anchors": ["c/src/index.c: mr_reader_index_i, mr_get_doc, mr_is_deleted, mr_delete_doc_i"]}
{"id": "C26", "title": "Deletion accounting", "statement": "After any sequence of delete/undelete-all on a reader, is_deleted(d) holds iff d was deleted since the last undelete, num_docs = max_doc - number of deleted documents, and a deleted document never appears in term document enumeration.", "quantifier": "all histories, all document numbers", "why_tests_cant": "unbounded histories", "anchors": ["c/src/index.c: sr_delete_doc_i, sr_undelete_all_i, sr_is_deleted, sr_num_docs, ir_delete_doc, bv_write, bv_read"]}
{"id": "C27", "title": "Segment merge preserves live content", "statement": "Merging segments produces one segment holding exactly the undeleted documents in their original order, and for every term exactly the postings (documents renumbered, frequencies, positions) of the undeleted documents; terms with no remaining document are dropped.", "quantifier": "all segment lists, all deletion sets, all postings", "why_tests_cant": "unbounded", "anchors": ["c/src/index.c: sm_merge, sm_merge_fields, sm_append_postings, sm_merge_term_info, smi_load_doc_map"]}
{"id": "C28", "title": "Index writer history semantics", "statement": "For every history of add_doc, delete_term, commit and optimize, the documents visible to a reader opened after commit are exactly those added and not deleted by a later delete, in insertion order, independent of the buffering and merge settings.", "quantifier": "all histories, all merge_factor/max_buffered settings", "why_tests_cant": "automatic flushes and merges happen at points depending on history", "anchors": ["c/src/index.c: iw_add_doc, iw_delete_term, iw_commit_i, iw_optimize_i, iw_maybe_merge_segments, iw_merge_segments"]}
{"id": "C29", "title": "Optimize terminates with one segment", "statement": "optimize always terminates and leaves at most one segment without deletions.", "quantifier": "all segment lists and all merge settings accepted by the configuration", "why_tests_cant": "loop termination over all configurations", "anchors": ["c/src/index.c: iw_optimize_i, iw_maybe_merge_segments"]}
{"id": "C30", "title": "Unused-file deleter is safe and complete", "statement": "The deleter removes every index file not referenced by the current segment infos and never removes a referenced one.", "quantifier": "all directory listings, all segment infos", "why_tests_cant": "unbounded listings; file name parsing", "anchors": ["c/src/index.c: deleter_find_deletable_files, file_name_filter_is_index_file, deleter_queue_file, deleter_commit_pending_deletions"]}
{"id": "C31", "title": "Readers have snapshot isolation", "statement": "A reader opened on a commit keeps returning the documents and terms of that commit no matter what writers do afterwards.", "quantifier": "all interleavings of writer operations after the open", "why_tests_cant": "quantifies over schedules", "anchors": ["c/src/index.c: ir_open, sr_setup_i, iw_merge_segments, deleter_delete_file", "c/src/ram_store.c: ram_remove"]}
{"id": "C32", "title": "Stale readers cannot modify the index", "statement": "A reader that is not at the latest version refuses delete/undelete/set_norm instead of overwriting newer commits.", "quantifier": "all interleavings of reader and writer commits", "why_tests_cant": "schedules", "anchors": ["c/src/index.c: ir_acquire_write_lock, ir_is_latest_i"]}
{"id": "C33", "title": "Search returns the exact top page", "statement": "search(query, first, n) returns exactly ranks first..first+n-1 of all matching (and filter-passing) documents ordered by descending score with ties by ascending document number, total_hits is the number of all matches, for every page whose end first+n is a representable int (or n meaning 'all'), and invalid paging arguments raise an error.", "quantifier": "all streams of matches and scores, all first/n", "why_tests_cant": "unbounded result sets", "anchors": ["c/src/search.c: isea_search_w, hit_pq_insert, hit_pq_pop, hit_lt"]}
{"id": "C34", "title": "Multi-searcher equals searching the union", "statement": "Searching several sub-searchers together returns the same page as ranking the union of their hits with document numbers shifted.", "quantifier": "any number of sub-searchers, any result streams", "why_tests_cant": "unbounded", "anchors": ["c/src/search.c: msea_search_w, msea_get_searcher_index"]}
{"id": "C35", "title": "Unscored scan returns the matches in order", "statement": "search_unscored with limit L and offset document o returns the first L matching documents >= o in ascending order.", "quantifier": "all match sets, limits >= 1, offsets", "why_tests_cant": "unbounded", "anchors": ["c/src/search.c: isea_search_unscored_w, msea_search_unscored_w"]}
{"id": "C36", "title": "Boolean query matches by boolean logic", "statement": "A boolean query matches a document iff every MUST clause matches, no MUST_NOT clause matches and, when there is no MUST clause, at least one SHOULD clause matches (a query of MUST_NOT clauses only matches every live document they do not exclude); each matching document is produced exactly once, in ascending order.", "quantifier": "all clause lists (nested to any depth), all match sets", "why_tests_cant": "unbounded nesting and match sets", "anchors": ["c/src/q_boolean.c: counting_sum_scorer_create, dssc_next, csc_next, rxsc_next, rossc_next, bsc_next"]}
{"id": "C37", "title": "Scorer skip_to is consistent with next", "statement": "For every query, jumping a scorer to a document number past its current document produces the first matching document at or after it, the same as stepping with next.", "quantifier": "all clause lists, all interleavings of next and skip_to", "why_tests_cant": "histories", "anchors": ["c/src/q_boolean.c: dssc_skip_to, csc_skip_to, rxsc_skip_to, rossc_skip_to", "c/src/q_term.c: tsc_skip_to", "c/src/q_phrase.c: phsc_skip_to"]}
{"id": "C38", "title": "Term scorer enumerates the postings", "statement": "The term scorer's next/skip_to interleaved arbitrarily over its internal 32-entry buffer yields exactly the term's postings with the right frequency for scoring.", "quantifier": "all posting lists, all interleavings of next/skip_to", "why_tests_cant": "buffer boundaries and interleavings", "anchors": ["c/src/q_term.c: tsc_next, tsc_skip_to, tsc_score"]}
{"id": "C39", "title": "Exact phrase matches exactly the phrase", "statement": "An exact phrase query matches a document iff some position p has every phrase term i at p + offset_i, and the phrase frequency is the number of such p.", "quantifier": "all documents, all phrases", "why_tests_cant": "unbounded position lists", "anchors": ["c/src/q_phrase.c: ephsc_phrase_freq, phsc_do_next"]}
{"id": "C40", "title": "Sloppy phrase requires the repeated terms", "statement": "A sloppy phrase containing the same term twice matches only documents in which the term occurs at least twice.", "quantifier": "all documents, slops and phrases", "why_tests_cant": "unbounded", "anchors": ["c/src/q_phrase.c: sphsc_phrase_freq, sphsc_check_repeats"]}
{"id": "C41", "title": "Wildcard matching is glob matching", "statement": "A wildcard pattern matches a term iff the term is obtained by replacing each ? by one byte and each * by any byte string.", "quantifier": "all patterns and terms", "why_tests_cant": "unbounded strings", "anchors": ["c/src/q_wildcard.c: wc_match, wcq_rewrite"]}
{"id": "C42", "title": "Prefix, wildcard and range expansion is exact", "statement": "Prefix, wildcard and range queries expand to exactly the indexed terms having the prefix / matching the pattern / lying in the range (subject to the configured term limit).", "quantifier": "all term lists, all bounds", "why_tests_cant": "unbounded term lists", "anchors": ["c/src/q_prefix.c: prq_rewrite", "c/src/q_wildcard.c: wcq_rewrite", "c/src/q_range.c: rfilt_get_bv_i"]}
{"id": "C43", "title": "Typed range filter selects only numbers in range", "statement": "A typed range filter selects exactly the documents with a numeric term inside the bounds.", "quantifier": "all term lists and numeric bounds", "why_tests_cant": "unbounded", "anchors": ["c/src/q_range.c: trfilt_get_bv_i"]}
{"id": "C44", "title": "Fuzzy scoring computes the edit distance", "statement": "The fuzzy score of a term is based on its true Levenshtein distance to the query text, and a term is discarded early only if its distance exceeds the allowed maximum.", "quantifier": "all pairs of strings, all maximum distances", "why_tests_cant": "unbounded strings", "anchors": ["c/src/q_fuzzy.c: fuzq_score_mn, fuzq_score"]}
{"id": "C45", "title": "Constant-score queries are repeatable", "statement": "Running the same constant-score query twice on the same reader returns the same documents.", "quantifier": "all filters, all sequences of searches", "why_tests_cant": "stateful shared cache", "anchors": ["c/src/q_const_score.c: cssc_new, cssc_next", "c/src/filter.c: filt_get_bv"]}
{"id": "C46", "title": "Highlighting preserves the text", "statement": "Removing the inserted tags from a full-field highlight gives back the stored field; every tag pair encloses a match.", "quantifier": "all texts, all match sets", "why_tests_cant": "unbounded", "anchors": ["c/src/search.c: highlight_field, matchv_compact, matchv_compact_with_breaks"]}
{"id": "C47", "title": "Match vector compaction preserves coverage", "statement": "Compacting a list of match ranges yields sorted disjoint ranges covering exactly the same positions.", "quantifier": "all lists of ranges", "why_tests_cant": "unbounded", "anchors": ["c/src/search.c: matchv_compact, matchv_compact_with_breaks, match_range_cmp"]}
{"id": "C48", "title": "Field length limit", "statement": "At most max_field_length terms of a field are indexed.", "quantifier": "all token streams and limits", "why_tests_cant": "unbounded streams", "anchors": ["c/src/index.c: dw_invert_field"]}
{"id": "C49", "title": "Terms stay within buffer bounds", "statement": "No indexed term, of whatever length the input has, makes the indexer or the term enumerators write outside their fixed-size term buffers.", "quantifier": "all field contents", "why_tests_cant": "all input lengths", "anchors": ["c/src/index.c: dw_invert_field, ste_next, sm_cache_term", "c/include/index.h: TermEnum"]}
{"id": "C50", "title": "Adding readers keeps deletions deleted", "statement": "Adding the contents of another index copies exactly its live documents.", "quantifier": "all source indexes and deletion sets", "why_tests_cant": "unbounded", "anchors": ["c/src/index.c: iw_add_readers, iw_cp_fields, iw_add_segment"]}
{"id": "C51", "title": "Writer lock is exclusive", "statement": "While one writer is open, no other writer and no modifying reader can commit, whatever failed attempts to open happen in between.", "quantifier": "all interleavings of open/close/failed open", "why_tests_cant": "schedules", "anchors": ["c/src/index.c: iw_open, iw_close, ir_acquire_write_lock"]}
{"id": "C52", "title": "Sorted search order", "statement": "A search with a sort specification returns the documents ordered by the sort fields lexicographically, ties broken by document number, with the same paging guarantees.", "quantifier": "all field values, sort specifications, pages", "why_tests_cant": "unbounded", "anchors": ["c/src/sort.c: fshq_less_than, fshq_pq_insert, fshq_pq_up, fshq_pq_down, fshq_pq_pop"]}
{"id": "C53", "title": "Multi-mapper replaces leftmost-longest matches", "statement": "A multi-mapper replaces, scanning left to right, matched patterns by their replacements and copies everything else unchanged.", "quantifier": "all pattern sets and inputs", "why_tests_cant": "unbounded strings; automaton construction", "anchors": ["c/src/multimapper.c: mulmap_compile, mulmap_map_len"]}
{"id": "C54", "title": "Growable array stores what was written", "statement": "After any sequence of set/push/pop/shift/unshift/remove/delete on a growable array, each index holds the value the sequence operations define, and no operation touches memory outside the allocation.", "quantifier": "all histories", "why_tests_cant": "unbounded histories", "anchors": ["c/src/array.c: ary_set_i, ary_push_i, ary_shift_i, ary_unshift_i, ary_remove_i"]}
{"id": "C55", "title": "Memory pool blocks never overlap", "statement": "Blocks returned by a memory pool between resets are pairwise disjoint and lie inside allocated chunks, whatever the sequence of requests.", "quantifier": "all request sequences", "why_tests_cant": "unbounded", "anchors": ["c/src/mempool.c: mp_alloc, mp_reset"]}
{"id": "C56", "title": "Equal queries hash equally", "statement": "Queries that compare equal have equal hash values, so query caches never split them.", "quantifier": "all pairs of queries of any nesting", "why_tests_cant": "unbounded nesting", "anchors": ["c/src/q_boolean.c: bq_eq, bq_hash", "c/src/q_phrase.c: phq_eq, phq_hash", "c/src/search.c: q_eq, q_hash"]}
{"id": "C57", "title": "Concurrent term lookups are independent", "statement": "Looking up terms through the same reader from two threads returns for each the result it would get alone.", "quantifier": "all interleavings of lookups of two or more threads", "why_tests_cant": "schedules", "anchors": ["c/src/index.c: tir_set_field, tir_get_ti_field"]}
{"id": "C58", "title": "Boolean score is coordination times the sum of clause scores", "statement": "Every hit of a boolean query carries the coordination factor (matching clauses out of the MUST and SHOULD clauses) times the sum of the scores of its matching clauses, recursively, however the clauses are split over conjunction, disjunction, optional and exclusion scorers (with exact arithmetic).", "quantifier": "all clause lists (nested to any depth), all posting lists, all score arithmetics with a commutative associative sum", "why_tests_cant": "unbounded nesting, match sets and arithmetics", "anchors": ["c/src/q_boolean.c: bsc_score, coord_factors, csc_score, cdssc_score, rossc_score, smsc_score", "c/src/q_term.c: tsc_score"]}
{"id": "C60", "title": "Rewriting keeps the boost of a query", "statement": "Expanding a prefix, wildcard, fuzzy or range query against an index keeps the boost the user set on it.", "quantifier": "all queries, indexes and boosts", "why_tests_cant": "boosts and expansions are unbounded; tests use boost 1", "anchors": ["c/src/q_prefix.c: prq_rewrite", "c/src/q_wildcard.c: wcq_rewrite", "c/src/q_fuzzy.c: fuzq_rewrite", "c/src/q_range.c: rq_rewrite"]}
{"id": "C61", "title": "Enumerating from a term starts at the first term not below it", "statement": "Asking a reader over several segments for the terms of a field from a given term stands on the least term of any segment that is not below it, with that term's total document frequency, and goes on from there; no segment's terms are lost.", "quantifier": "all segments, fields, start terms and sequences of calls", "why_tests_cant": "term lists, segments and call sequences are unbounded; the failing case needs an empty term in one segment", "anchors": ["c/src/index.c: mte_new, mr_terms_from, sr_terms_from, ste_scan_to"]}
{"id": "C62", "title": "An added document is found by exactly its terms", "statement": "After any sequence of field descriptions and added documents is flushed, asking for a term of a field gives exactly the documents whose field has the term among the tokens indexed, in order, with its frequency and positions; the document's term vectors show the same tokens with their offsets, and each field with norms gets one byte per document. Fields that are not indexed have no terms.", "quantifier": "all sequences of fields and documents, all analyzers, all terms", "why_tests_cant": "documents, analyzers and histories are unbounded; failures need unusual position increments or term lengths", "anchors": ["c/src/index.c: dw_add_doc, dw_invert_field, dw_add_posting, dw_add_offsets, dw_flush, dw_write_norms", "c/src/index.c: stde_seek, stde_next, stpe_next_position, sr_term_vector"]}
{"id": "C63", "title": "Tokenizers give exactly the runs of the text", "statement": "Whatever the text, the whitespace and letter tokenizers (single-byte and multi-byte, with or without lower-casing) give exactly its maximal runs of non-space characters or of letters, in order, one position apart, with the byte offsets of the run; a run longer than the token buffer is cut to what fits. The non-tokenizer gives the whole text as one token.", "quantifier": "all texts, all locales", "why_tests_cant": "texts are unbounded; failures are at the end of the text, at the buffer limit and at badly encoded bytes", "anchors": ["c/src/analysis.c: nt_next, wst_next, mb_wst_next, mb_wst_next_lc, lt_next, mb_lt_next, mb_lt_next_lc, mb_next_char, tk_set, w_tk_set"]}
{"id": "C64", "title": "Token filters change exactly what they say", "statement": "Whatever the tokens below, a stop filter drops exactly the stop words and leaves every other token at its position; lower case, stemming and mapping filters change each token's text and nothing else; a hyphen filter gives a compound word joined, followed by its parts with their offsets, and leaves other tokens alone; all of it the same when a stream is reset and used again.", "quantifier": "all token streams, stop word sets, mappings, locales", "why_tests_cant": "streams are unbounded; failures need runs of stop words, empty tokens or a stream reset half way", "anchors": ["c/src/analysis.c: sf_next, mf_next, hf_next, lcf_next, mb_lcf_next, stemf_next, filter_reset"]}
{"id": "C66", "title": "Queries that compare equal ask the same", "statement": "Two queries compare equal exactly when they ask the same: same kind, field, terms, boosts, clauses in the same order and parameters, at every level of nesting; whichever of them is asked.", "quantifier": "all pairs of queries of any nesting, all boosts and filters", "why_tests_cant": "unbounded nesting and all pairs of kinds of clauses", "anchors": ["c/src/search.c: q_eq", "c/src/q_span.c: spanoq_eq, spannq_eq, spanfq_eq, spanxq_eq, spantq_eq, spanprq_eq", "c/src/q_boolean.c: bq_eq, bc_eq", "c/src/filter.c: filt_eq", "c/src/q_range.c: rfilt_eq"]}
{"id": "C67", "title": "Sloppy phrase matches exactly where the phrase fits the slop", "statement": "A sloppy phrase query matches exactly the documents in which an occurrence of every phrase position, moved back by its offset, can be chosen so that all lie within slop of each other; the best match scored is the narrowest such window; next and skip_to agree on the documents.", "quantifier": "all indexes, phrases with any number of positions and terms per position, slops, sequences of next and skip_to, and orders qsort gives equal elements", "why_tests_cant": "the sliding window over unbounded position lists and every interleaving of calls cannot be enumerated", "anchors": ["c/src/q_phrase.c: sphsc_phrase_freq, sphsc_check_repeats, phsc_next, phsc_skip_to, phsc_do_next, phw_scorer"]}
{"id": "C65", "title": "The standard tokenizer covers a text", "statement": "Given any text, the standard tokenizer for ASCII ends, reads only the text, and gives tokens in order, each with the offsets of a part of the text and made of bytes of that part; no letter or digit of the text lies outside all tokens; and in a text of letters, digits and plain separators the tokens are exactly the maximal runs of letters and digits, cut to 254 bytes.", "quantifier": "all texts without zero bytes, both signednesses of char, all offsets and buffer sizes", "why_tests_cant": "the generated automaton has 87 states and several variables carried between characters; texts are unbounded and a wrong backtrack or stale variable needs a particular text", "anchors": ["c/src/scanner.c: frt_std_scan and its tables", "c/src/analysis.c: std_next"]}
{"id": "C68", "title": "The UTF-8 standard tokenizer keeps letters and reads only the text", "statement": "Given any text, the standard tokenizer for UTF-8 reads only the text, gives ASCII texts the same tokens as the ASCII tokenizer, and leaves no letter of any script outside the tokens; a space is never part of a word.", "quantifier": "all texts without zero bytes, properly encoded or not, both signednesses of char", "why_tests_cant": "1399 generated states, and what happens depends on the signedness of char and on where a text is cut off", "anchors": ["c/src/scanner_utf8.c: frt_std_scan_utf8 and its tables", "c/src/analysis.c: std_next", "c/Rakefile, c/Makefile, ruby/ext/extconf.rb: CFLAGS"]}
{"id": "C69", "title": "A span query gives the spans it asks for", "statement": "Going through the spans of any span query ends and gives, in order of document and start, exactly what the query asks for: a term gives its occurrences, 'first' the spans that end early enough, 'or' the spans of all clauses, 'not' the spans that share no position with an excluded one, and 'near' the texts made of one span of each clause with at most the slop between them, in order if asked for, so that every such text contains a reported one.", "quantifier": "all indexes, all span queries of any nesting and number of clauses, all slops and limits", "why_tests_cant": "the enumerators keep queues and windows over all clauses and advance them in an order that depends on every position in every document; nesting is unbounded", "anchors": ["c/src/q_span.c: SpanTermEnum, SpanMultiTermEnum, SpanFirstEnum, SpanOrEnum, SpanNearEnum, SpanNotEnum and their get_spans"]}
{"id": "C70", "title": "Searching with a span query finds the documents that have its spans", "statement": "A search with any span query reports exactly the documents in which the query has spans, each once, in ascending order, scored by the lengths of the spans there; the same holds for boolean queries that combine span queries and terms, and for searches without scores.", "quantifier": "all indexes, all span queries, all boolean combinations of terms and span queries, all sequences of next and skip_to", "why_tests_cant": "the scorer looks one span ahead, so whether a jump works depends on where every earlier call left it and on every document of the other clauses", "anchors": ["c/src/q_span.c: spansc_next, spansc_skip_to, spansc_score, spansc_new", "c/src/search.c: isea_search_each_w, isea_search_unscored_w"]}
{"id": "C71", "title": "Highlighting with a span query marks the terms inside its spans", "statement": "Highlighting a document with a span query marks exactly the positions at which a term of the query occurs inside one of the query's spans; marks made by other parts of the query stay; if the document has no span of the query nothing is marked.", "quantifier": "all term vectors, all span queries, all sortings qsort may produce, all match vectors marked before", "why_tests_cant": "which memory is read depends on which terms the document has and on how far every enumerator has come; the faults read memory that happens to be harmless in most runs", "anchors": ["c/src/q_span.c: spanq_get_matchv_i, mv_to_term_mv, tv_tde_next, tv_tde_skip_to, tv_tde_next_position, spantq_get_terms, spanoq_get_terms, spannq_get_terms, spanxq_get_terms", "c/src/search.c: matchv_compact"]}
{"id": "C72", "title": "Reads through an Index show every earlier write", "statement": "An Index object opens and closes readers and writers by itself. For every history of calls through it (adding, deleting by number, term or query, optimizing, flushing, reading), among commits of other processes, each read shows exactly the documents that were added or committed by others and not deleted since, in order; after a flush (or a call with auto_flush) they are all on disk and the lock is free.", "quantifier": "All histories of calls, all interleavings with the writers of other processes, all settings of auto_flush and check_latest, all contents, all effects of merging on numbers.", "why_tests_cant": "What a call sees depends on which reader or writer earlier calls left open and on what other processes committed in between; tests follow a few short histories of one process.", "anchors": ["c/src/ind.c: ensure_reader_open, ensure_writer_open, index_add_doc, index_delete, index_delete_term, index_delete_query, index_optimize, index_flush", "c/src/index.c: ir_commit_i, ir_is_latest, mr_is_latest_i, iw_close, iw_open"]}
{"id": "C73", "title": "A keyed Index keeps one document per key", "statement": "In an Index with key fields, adding a document replaces the document with the same key: every read shows at most one document for each key, the one added last, and no call fails for lack of uniqueness.", "quantifier": "All histories of calls, key sets, documents, interleavings with other writers, settings.", "why_tests_cant": "Uniqueness is an invariant of all histories, across deletions, flushes, merges and readers left open; tests add a few documents.", "anchors": ["c/src/ind.c: index_del_doc_with_key_i, index_add_doc_i"]}
{"id": "C74", "title": "Cleaning a query text keeps its words and leaves it well formed", "statement": "Before parsing, the text of a query is cleaned. For every text, cleaning never writes outside the memory it allocated, keeps every character but backslashes in order, and adds nothing but backslashes, parentheses and quotes. In the result all quotes and parentheses are matched (escaped ones and parentheses inside quotes not counting), and inside quotes every special character other than the marks of a phrase is escaped. A text that is already so is left unchanged.", "quantifier": "every text of any length", "why_tests_cant": "The texts are unbounded and the defects depend on the combination of open quotes, open parentheses and backslashes; the size of the allocation must suffice for the worst of all texts.", "anchors": ["c/src/q_parser.y: qp_clean_str, str_insert_char, special_char, PHRASE_CHARS", "c/src/q_parser.c: qp_clean_str"]}
{"id": "C75", "title": "Words of a query are read as written", "statement": "Reading the tokens of a query text never writes outside the buffers of the parser and always makes progress. A word written with any of its characters escaped by a backslash is read as exactly that word, and counts as a wild-card pattern exactly if it has a wild card that is not escaped; so any word can be searched for by escaping it.", "quantifier": "every text of any length; every word, every choice of escaped characters, everything that may follow it", "why_tests_cant": "The buffer switch happens at one exact length, so only words of particular lengths with particular characters at that place show the overflow; the claim about escapes ranges over all words and all contexts.", "anchors": ["c/src/q_parser.y: yylex, get_word, not_word, special_char", "c/include/search.h: QParser.buf, dynbuf"]}
{"id": "C76", "title": "Parsing a query text always ends, and gives only what the text means", "statement": "Parsing any query text ends after a number of steps linear in its length, never reads or writes outside the parser's memory, and leaves the parser ready for the next text. Every query it gives is what the text means in the query language: a tree of clauses, signs, boosts, parentheses, fields, words, phrases and ranges that is written with exactly the tokens of the text. A text outside the language gives a parse error, or, with the setting to handle errors, the query for its plain words.", "quantifier": "every text of any length, every configuration of the parser, every analyzer", "why_tests_cant": "The texts and the nesting are unbounded; the failures need rare combinations (a bar behind a gap, a slop that is no number, a long word before another, a range out of order inside a field clause followed by a second parse).", "anchors": ["c/src/q_parser.y: grammar, yyerror, qp_parse, qp_get_bad_query, get_bool_q, add_and_cls, add_or_cls, get_r_q, get_phrase_q, ph_add_multi_word, qp_push_fields, qp_pop_fields", "c/src/q_parser.c: yyparse, yypact, yytable, yycheck, yydefact, yypgoto, yydefgoto, yyr1, yyr2"]}
{"id": "C77", "title": "Every query of the query language can be written, and is read as what it means", "statement": "Every tree of the query language (clauses with signs, joins and boosts, parentheses, fields, words, phrases, ranges, wild cards, fuzzy words) has a text; parsing any text whose words and marks are those of the tree gives exactly the query the tree means, whatever special characters the words contain once they are escaped; and two trees written the same way mean the same.", "quantifier": "every tree of any size, every configuration of the parser and analyzer, every text that is written with the words and marks of the tree", "why_tests_cant": "Trees are unbounded in size and nesting, and the tables of the parser were generated; tests try a few dozen texts", "anchors": ["c/src/q_parser.y: qp_parse, yylex, get_word, the grammar rules", "c/src/q_parser.c: yyparse and its tables", "c/src/q_parser.y: qp_clean_str"]}
{"id": "C78", "title": "What words, phrases and patterns of a query text ask for, in one field and in several", "statement": "Parsing a query text turns each word into a query for exactly the tokens the analyzer makes of it, at the positions the analyzer gives them; each phrase into a phrase query whose places are the written ones, gaps and stop words counted in the distances; each word with wild cards into a query for exactly the terms that match it; each range into a range with its bounds. A query for several fields asks for the same in any of them.", "quantifier": "all settings and analyzers, fields, words, phrases (with gaps, alternatives and slops), patterns and ranges", "why_tests_cant": "words, phrases, analyzers and lists of fields are unbounded; the tests have a few dozen texts", "anchors": ["c/src/q_parser.y:get_term_q", "c/src/q_parser.y:get_fuzzy_q", "c/src/q_parser.y:get_wild_q", "c/src/q_parser.y:get_phrase_query", "c/src/q_parser.y:get_r_q", "c/src/q_parser.y:FLDS", "c/src/q_parser.y:ph_add_word", "c/src/q_parser.y:ph_add_multi_word"]}
{"id": "C79", "title": "Filters and filtered queries restrict searches exactly", "statement": "A search with a filter reports exactly the hits of the search without it whose documents the filter lets through, in the same order and with the same scores; a post filter drops the hits it gives the factor 0 and multiplies the scores of the others. A filtered query reports exactly the hits of its query that its filter lets through. A filter made from a query lets through exactly the documents that query matches, at all times: as documents are deleted and undeleted, every filtered search reports exactly the documents that are not deleted and match both queries.", "quantifier": "all queries, all postings, all bit vectors, all post filters, all sequences of deletions, undeletions and filtered searches on a reader", "why_tests_cant": "the bits of a filter are computed once per reader and then kept while the reader's deletions change; tests filter an unchanging index", "anchors": ["c/src/filter.c:filt_get_bv", "c/src/filter.c:qfilt_get_bv_i", "c/src/q_filtered_query.c:fqsc_next", "c/src/q_filtered_query.c:fqsc_skip_to", "c/src/q_filtered_query.c:fqw_scorer", "c/src/search.c:isea_search_each_w"]}
{"id": "C80", "title": "Exceptions run the parts of blocks once and end as they say", "statement": "In a program of nested blocks with cleanup parts, catch-all parts and case parts, whatever raises where: a cleanup part is run exactly once, after the body, and the exception goes on; a catch-all part or the matching case is run exactly when an exception comes, and swallows it exactly when it says so; an exception raised inside a cleanup part does not stop it and gets out when it ends, unless one is pending already; the stack of blocks is given back as it was.", "quantifier": "every program of nested blocks, raises and handled marks; every stack of blocks around it", "why_tests_cant": "The paths multiply with nesting and with the places that can raise; tests raise in a few places of a few shapes and never inside cleanup parts.", "anchors": ["c/include/except.h:FRT_TRY,FRT_XENDTRY,FRT_ENDTRY,FRT_XFINALLY,FRT_XCATCHALL,FRT_HANDLED", "c/src/except.c:xpush_context,xraise,xraise_context,xpop_context"]}
{"id": "C81", "title": "Opening an index while another process commits", "statement": "Opening an index (finding the current segments file and reading it) while a writer in another process makes any number of commits, whatever the interleaving of the reader's accesses with the writer's events, gives one of the commits, whole, and one that was the newest at some moment during the search; it raises no error because of the commits; and it ends unless commits keep overtaking it, at most two rounds for each. In a directory that does not change the search always ends.", "quantifier": "every sequence of commits, every interleaving of the reader's accesses (list, open, exists, read) with the events of the writer (create, write a byte, delete); every directory content for the last claim", "why_tests_cant": "The races are windows of microseconds between listing and opening; a test cannot place the writer's events between given accesses of the reader, let alone everywhere.", "anchors": ["c/src/index.c:sis_find_segments_file,sis_read,sis_read_i,sis_current_segment_generation,sis_write,sis_read_current_version"]}
{"id": "C82", "title": "An explanation of a document gives its score", "statement": "Explaining a query for a document of an index gives, as the value of the explanation, the score that a search for that query gives the document, and zero if the search does not give it.", "quantifier": "every query, every index, every document of it", "why_tests_cant": "The score is computed by scorers that move through postings and share counters of matches, the explanation by a recursion over weights: that the two agree must hold for every nesting of clauses, every boost and every document, found or not.", "anchors": ["c/src/search.c:isea_explain,q_weight,w_normalize", "c/src/q_boolean.c:bw_explain,bw_new,bw_normalize", "c/src/q_term.c:tw_explain,tsc_explain", "c/src/q_const_score.c:csw_explain", "c/src/q_match_all.c:maw_explain", "c/src/q_filtered_query.c:fqw_explain"]}
{"id": "C83", "title": "Searching again with a query gives the same result", "statement": "A search does not change the query: in any sequence of searches with any queries on one index, a query gives, every time, the hits and scores that its clauses and boosts ask for.", "quantifier": "all queries of any depth and boosts, all indexes, and all sequences of searches with them", "why_tests_cant": "the sequence of searches is unbounded and rewriting writes into the objects of the query; tests search once with a fresh query", "anchors": ["c/src/q_boolean.c: bq_rewrite, bw_new, bq_add_query_nr", "c/src/search.c: isea_rewrite, q_weight"]}
{"id": "C84", "title": "Excerpts are tagged parts of the text that show the best matches", "statement": "For every stored text with term offsets, every set of matches, every excerpt length, number of excerpts, tags and ellipsis: highlighting returns the whole tagged text if it is shorter than all excerpts together, nothing if there are no matches, and otherwise excerpts each of which is, without tags and ellipses, a contiguous part of the text of at most the length asked for, whose tags enclose matches; the runs of matches shown are chosen best first, and every run chosen is shown. Nothing is written outside the buffers.", "quantifier": "all stored texts, term offsets, sets of matches with any order of addition and sorting, excerpt lengths and numbers, tags and ellipses", "why_tests_cant": "Which excerpts are chosen, merged and expanded depends on the distances of all matches and on a queue whose scores change while it is used; tests cover a few texts, not every layout, nor writes past a buffer.", "anchors": ["c/src/search.c: searcher_highlight, excerpt_new, excerpt_recalc_score, excerpt_expand, excerpt_get_str, excerpt_lt, excerpt_start_cmp", "c/src/priorityqueue.c: pq_push, pq_pop, pq_down"]}
{"id": "C85", "title": "Highlighting marks what the query asks for", "statement": "For every field with stored positions and every query made of words, sets of words, ranges, typed ranges, exact and sloppy phrases and boolean combinations: the ranges of positions marked for highlighting are exactly what the clauses that are not prohibited ask for in that field. Every marked range is a word, number or phrase that is asked for, and every word, number and exact phrase asked for is marked; for every way of choosing words for a sloppy phrase within its slop a range in the same window is marked.", "quantifier": "all term vectors, all queries of any depth, all phrases with any number of parts, any slop and several words per part", "why_tests_cant": "the marks of phrases come from merged position lists that are advanced against each other; which pairs are skipped depends on all positions, and tests look at a few texts", "anchors": ["c/src/search.c: match_vector_add", " c/src/index.c: tv_scan_to_term_index, tv_get_tv_term", "c/src/q_phrase.c: phq_get_matchv_i, tvpe_next, tvpe_skip_to, tvpe_new_merge", "c/src/q_range.c: rq_get_matchv_i, trq_get_matchv_i", "c/src/q_term.c: tq_get_matchv_i", "c/src/q_multi_term.c: multi_tq_get_matchv_i", "c/src/q_boolean.c: bq_get_matchv_i"]}
{"id": "C86", "title": "The text of a query is put together from its parts without writing outside the memory allocated for it", "statement": "Asking any query for its text with respect to a default field returns the text its structure prescribes: field prefixes where the field is not the default field, words, quotes with the places of a phrase in order and a gap mark for every place between them, signs and parentheses of clauses, range brackets, similarities, slops and boosts other than 1; and it never writes or reads outside the memory allocated for that text. It holds for all queries whose boosts are finite, whose phrases have words at each place and whose near-span queries have at most 39 clauses; near-span queries with 40 or more clauses always overrun their buffer, infinite boosts leave the text unterminated, and the text of search results with at least one hit reads freed memory.", "quantifier": "every query tree of any depth and width, every default field, every word, boost and format string", "why_tests_cant": "the sizes of the buffers depend on the lengths and numbers of parts, so only a proof over all queries shows that none is too small", "anchors": ["c/src/q_boolean.c:bq_to_s", "c/src/q_phrase.c:phq_to_s", "c/src/q_multi_term.c:multi_tq_to_s", "c/src/q_term.c:tq_to_s", "c/src/q_span.c:spannq_to_s", "c/src/q_span.c:spanoq_to_s", "c/src/q_range.c:range_to_s", "c/src/global.c:vstrfmt", "c/src/global.c:dbl_to_s", "c/src/search.c:td_to_s"]}
{"id": "C87", "title": "The text of a query, parsed, gives back the same query", "statement": "Parsing what to_s gives for a query with respect to a default field, with a parser that has this default field and takes clauses without a sign as alternatives, gives exactly that query: the same fields, words, places and gaps of phrases, slops, similarities, range bounds with their inclusion, boolean structure with signs, and boosts; so two such queries with the same text are the same query. It holds for all queries built from terms, phrases, prefixes, patterns, fuzzy words, ranges and boolean queries whose words need no escapes and are left alone by the analyzer; to_s escapes nothing, drops the structure of boolean queries with one clause, writes words at the same place in a way the parser does not read, and writes a fuzzy word before another word so that it is read as its similarity.", "quantifier": "every query tree of any width nested up to 1600 deep, every parser configuration with one default field, every analyzer, every way of reading and writing numbers that agree", "why_tests_cant": "the text of a query goes through formatting, cleaning, lexing and an LALR automaton; a test settles single texts, not all trees", "anchors": ["c/src/q_parser.y:qp_parse", "c/src/q_parser.y:get_word", "c/src/q_parser.y:yylex", "c/src/q_boolean.c:bq_to_s", "c/src/q_phrase.c:phq_to_s", "c/src/q_range.c:range_to_s", "c/src/q_fuzzy.c:fuzq_to_s", "c/src/q_term.c:tq_to_s"]}
{"id": "C88", "title": "Searching for many terms at once", "statement": "A query for a list of weighted terms of a field (what prefix, wildcard and fuzzy queries become) finds, in order, exactly the documents that have at least one of the terms, each once, with the sum of the frequency factors times the weights of the terms it has, times the weight of the query and the norm; walking with next and skip_to in any order visits exactly these documents; inside boolean queries the query holds for exactly these documents; a prefix or wildcard query finds exactly the documents with a matching term if no more terms match than it may expand to; the value of the explanation of a document is its score, and zero for other documents.", "quantifier": "every dictionary and postings, every field, every list of weighted terms (any order, repeated, absent), every sequence of next and skip_to calls, every boolean nesting handled by C36, every document", "why_tests_cant": "The lists of the terms are merged with a priority queue that is filled lazily by the first call; whether a document is lost, visited twice or gets the wrong sum depends on how the lists interleave and on the order of the calls", "anchors": ["c/src/q_multi_term.c:multi_tsc_next", "c/src/q_multi_term.c:multi_tsc_advance_to", "c/src/q_multi_term.c:multi_tw_scorer", "c/src/q_multi_term.c:multi_tsc_explain", "c/src/q_multi_term.c:multi_tw_explain"]}
{"id": "C89", "title": "The legacy standard tokenizer gives parts of the text, in order, leaving nothing out", "statement": "Tokenizing with the legacy standard analyzer never reads or writes outside of the text and its buffers; every token names a part of the text by where it begins and ends and gives what is there, as it is or without the ending of a possessive, the full stops of an acronym or the scheme of a web address; tokens are in order and apart; every letter and digit of the text is in a token; and plain words, possessives, contractions, company names, acronyms, web addresses, numbers and addresses are given each in its own way.", "quantifier": "every text, locale and list of words", "why_tests_cant": "the scanner branches on every byte and its neighbours, so tests with sample sentences cannot show what it does with the marks and lengths they do not have", "anchors": ["c/src/analysis.c: legacy_std_next, legacy_std_get_alpha, legacy_std_get_number, legacy_std_get_apostrophe, std_get_url, legacy_std_get_company_name, legacy_std_advance_to_start", "c/src/analysis.c: mb_legacy_std_get_alpha, mb_legacy_std_advance_to_start, mb_legacy_standard_tokenizer_new"]}
{"id": "C90", "title": "A store on disk behaves as a store in memory", "statement": "For every history of calls on a store (touch, exists, remove, rename, count, length, each, clear, opening, reading and writing streams), a store on disk gives what a store in memory gives and leaves the files outside its directory as they are; opening a path gives the store that is open for it, and a store is there until everyone who opened it has closed it.", "quantifier": "all histories of calls and names, all contents of the file system outside the directory, all histories of opening and closing stores by several threads", "why_tests_cant": "tests run one list of calls on both stores, with short names, without errors of the operating system and in one thread", "anchors": ["c/src/fs_store.c fs_touch, fs_exists, fs_remove, fs_rename, fs_count, fs_each, fs_clear, fs_clear_locks, fs_clear_all, fs_length, fs_new_output, fs_open_input, fs_destroy, fs_close_i, open_fs_store", "c/src/store.c store_deref", "c/src/ram_store.c", "c/include/store.h"]}
{"id": "C91", "title": "A MultiSearcher finds in each searcher what the query finds there alone", "statement": "Searching several searchers at once with a MultiSearcher finds in each of them exactly the documents that the same query finds when that searcher is searched alone, whatever terms the other searchers have for the prefixes, wildcards and fuzzy words of the query; document frequencies are those of all documents together.", "quantifier": "All queries built of words, patterns and nested boolean clauses, all numbers of searchers and all their contents", "why_tests_cant": "The query is rewritten by every searcher and the results are merged with duplicates dropped; whether the merged query still asks the same depends on the shape of the query and on the vocabularies of all searchers", "anchors": ["c/src/search.c: q_combine, msea_rewrite, q_weight, msea_doc_freq", "c/src/q_boolean.c: bq_rewrite, bw_new, bq_add_query"]}
{"id": "C92", "title": "Queries are freed once and only when nobody uses them", "statement": "A program may build queries out of queries and filters, share them, search with them as often as it likes and give them up in any order. Nothing that was freed is read, written or freed again; what the program holds stays usable; and when it has given up everything, all memory of queries, clauses, filters and weights has been freed.", "quantifier": "all sequences of calls that create queries and filters, add clauses (with and without taking over), take and give up references, start and end searches; all nestings and sharings of queries; exceptions included", "why_tests_cant": "Use after free depends on the order of references taken and given up over a whole history and on which queries are shared and rewritten; most uses of freed memory go unnoticed by a test.", "anchors": ["c/src/search.c:q_deref,q_weight,isea_rewrite,w_create,w_destroy", "c/src/q_boolean.c:bq_rewrite,bq_add_query,bq_add_query_nr,bq_destroy,bq_get_similarity,bc_deref", "c/src/q_span.c:spanoq_rewrite,spanoq_add_clause", "c/src/filter.c:filt_deref,qfilt_new", "c/src/q_filtered_query.c:fq_new,fqw_new", "c/src/q_const_score.c:csq_new"]}
{"id": "C93", "title": "Norms that are set are the norms that are read", "statement": "When a program sets the norm of a field of a document, every later read of norms with its reader gives that norm for that document and the same norms as before for all others; a reader that is opened sees the norms as they were at the last commit. This holds for any number of segments, with and without compound files.", "quantifier": "all indexes (segments, documents, fields, compound or not), all sequences of setting norms, reading norms, reading them into memory, committing and opening other readers", "why_tests_cant": "Norms are cached per segment and per index, written to files named by generation and field, and old files are deleted; whether a cache is stale or a file is overwritten or deleted too early depends on the whole history and on the numbering of fields and documents.", "anchors": ["c/src/index.c:norm_rewrite,sr_get_norms_into_i,sr_get_norms_i,sr_set_norm_i,sr_commit_i,sr_open_norms,mr_get_norms,mr_get_norms_into,mr_set_norm_i,mr_commit_i,ir_set_norm,ir_get_norms_i,ir_get_norms_into,ir_commit_i", "c/src/q_span.c:spansc_score,spansc_new"]}
{"id": "C94", "title": "A reader of several indexes reads every field by its name", "statement": "A reader that is opened on the readers of several indexes has exactly the fields of all of them, each once, with a property if some index has it for a field of that name. Under the name of a field it gives, in order and each once, the terms that the indexes have in the field of that name, as frequency of a term the sum of theirs, and as norms theirs one index after the other with 0 where an index does not have the field, whatever numbers the field has in the indexes. A field that no index has is refused.", "quantifier": "for every number of indexes, every table of fields in each, all terms, frequencies and norms, and every sequence of calls", "why_tests_cant": "how fields are numbered depends on the order in which documents were added to each index; tests use one or two orders", "anchors": ["c/src/index.c: mr_open, ir_get_field_num, mr_get_field_num, mr_get_norms, mr_terms, mr_doc_freq", "c/src/index.c: mte_new, mte_set_field", "ruby/ext/r_index.c: frb_ir_init"]}
{"id": "C95", "title": "Changes through a reader of several indexes are guarded by the locks of the indexes", "statement": "A change that is made through a reader of several indexes is refused while another client modifies that index or when the reader is out of date, and its commit is based on the version it replaces.", "quantifier": "for every number of indexes and every history of writers, readers and readers of several indexes", "why_tests_cant": "which interleavings lose commits depends on when the reader was opened and when the others commit", "anchors": ["c/src/index.c: mr_open, ir_setup, ir_acquire_not_necessary, mr_set_norm_i, mr_delete_doc_i, mr_undelete_all_i, mr_commit_i, ir_commit_i"]}
{"id": "C96", "title": "Streams of tokens are independent of each other", "statement": "A program may put filters over tokenizers, make analyzers and per-field analyzers of them, take streams from analyzers, copy streams, reset them to other texts, ask several of them for tokens in turns, and give up streams and analyzers in any order. Each stream gives exactly the tokens of its own text, whatever is done with others or with the analyzer it came from; nothing that was freed is used; and when the program has given up everything, all of it has been freed.", "quantifier": "all sequences of calls that make, wrap, copy, reset, ask, reference and give up token streams, analyzers and per-field analyzers; all tokenizers, all chains of filters, all texts and fields", "why_tests_cant": "Streams of one analyzer share stop words and mappings and copy pointers; whether one of them disturbs another or outlives what it points to depends on the whole order of calls, and most uses of freed memory go unnoticed by a test.", "anchors": ["c/src/analysis.c:a_standard_get_ts", "c/src/analysis.c:filter_clone_size", "c/src/analysis.c:hf_clone_i", "c/src/analysis.c:mf_reset", "c/src/analysis.c:pfa_get_ts", "c/src/analysis.c:pfa_add_field", "c/src/analysis.c:ts_deref"]}
{"id": "C97", "title": "Documents keep what is put into them and are freed once", "statement": "Whatever sequence of calls a program makes on texts, fields and documents, as long as it uses only things that are there: a field gives back exactly the texts added to it, in order; a document finds a field by its name, exactly the one that was put in, and refuses a second field of the same name without changing; fields and documents are printed whole; no memory is used that is not allocated; and destroying a document frees its fields, and the texts they own, exactly once. Field names are the same symbol exactly when they are the same text. Adding a text, or an array of texts, to an index adds a document that has them.", "quantifier": "all sequences of calls, all texts, names, numbers of texts and fields", "why_tests_cant": "unbounded sequences of calls and sizes; memory errors need not show in a run", "anchors": ["c/src/document.c: df_new, df_add_data_len, df_destroy, df_to_s, doc_new, doc_add_field, doc_get_field, doc_to_s, doc_destroy", "c/src/symbol.c: intern, intern_and_free", "c/src/ind.c: index_add_string, index_add_array"]}
{"id": "C98", "title": "A store copied into memory has the same files", "statement": "Making a store in memory from another store (in memory or on disk) gives a store that has exactly the files of that one except its locks, each with the same bytes, on which every later call returns what it returns in such a directory; the store copied goes on as before, and no stream stays open.", "quantifier": "all histories of calls on the store copied, all names and contents of files, all calls made on the copy and on the original afterwards", "why_tests_cant": "A test copies one directory with a few short files; it cannot range over all histories, all names (which of them are locks), files of any length, and what happens to the store while it is copied.", "anchors": ["c/src/ram_store.c:copy_files", "c/src/ram_store.c:open_ram_store_and_copy", "c/src/ram_store.c:ram_each", "c/src/fs_store.c:fs_each", "ruby/ext/r_store.c:frb_ramdir_init"]}
{"id": "C99", "title": "Enumerations, lookups and deletions by term agree while documents are deleted", "statement": "While documents are deleted and undeleted through a reader, an enumeration of the documents with a term gives the documents with it that are not deleted when it comes to them, in order; looking up a document by a term gives the first one that is not deleted; deleting by a term deletes exactly the documents that have it.", "quantifier": "all segments and postings, all interleavings of opening, advancing, skipping and closing any number of enumerations with deletions, undeletions, lookups and deletions by term", "why_tests_cant": "The outcome depends on when an enumeration was opened relative to the first deletion in each segment; tests run one enumeration over one state.", "anchors": ["c/src/index.c:stde_new", "c/src/index.c:stde_next", "c/src/index.c:mtde_next", "c/src/index.c:mtde_skip_to", "c/src/index.c:sr_delete_doc_i", "c/src/index.c:sr_undelete_all_i", "c/src/index.c:ir_get_doc_with_term", "c/src/ind.c:index_term_id", "c/src/ind.c:index_get_doc_term", "c/src/ind.c:index_delete_term"]}
{"id": "C100", "title": "A segment put into a compound file reads the same", "statement": "When a writer packs a new segment into one compound file, every file a reader of the segment opens (stored fields, dictionary, postings, positions, norms of each field that has them) is found in the compound file and reads byte for byte as before, also after the separate files have been removed; nothing else in the store changes; and if packing fails, the segment can still be read.", "quantifier": "all segments with any fields, any of which have norms, written in any order, all contents, all pending removals, all sequences of reads, seeks and copies of the streams", "why_tests_cant": "A test packs a small segment with one or two fields. That no file a reader needs is left out depends on which fields have norms, and the loss after a failure needs the store to fail exactly while packing.", "anchors": ["c/src/index.c:iw_create_compound_file,iw_commit_compound_file,iw_flush_ram_segment,sr_setup_i,sr_open_norms,si_norm_file_name", "c/src/compound_io.c"]}
{"id": "C101", "title": "Threads reading the same file through their own streams read what is in it", "statement": "When several threads read files of one store at the same time, each through an input stream of its own (opened from the store, or a copy of an opened one, as enumerators, term dictionaries and lazily loaded documents hold), every read of every thread returns the bytes that are in its file at its position, whatever the other threads do in between.", "quantifier": "all numbers of threads, all programs of reads and seeks, all contents, and all interleavings of the threads' steps on shared file offsets", "why_tests_cant": "the outcome depends on where within a refill of a buffer another thread is scheduled; tests see a handful of schedules and the failing ones are rare", "anchors": ["c/src/fs_store.c:fsi_read_i", "c/src/compound_io.c:cmpdi_read_i", "c/src/store.c:is_clone,is_refill,is_seek", "c/src/ram_store.c:rami_read_i", "c/src/index.c:sr_fr,stde_new,lazy_doc_new"]}
{"id": "C102", "title": "A searcher over several searchers numbers all documents through, and gives what it reported when asked for it", "statement": "A searcher over searchers, which may themselves be searchers over searchers, behaves as one searcher over all the indexes one after the other: asked by number for a document, its term vectors or the explanation of a query, it gives what the index that has the document gives; the totals of documents and of documents with a term are the sums; a search reports every hit of every index once, in order, under the number that gives this document; a scan with a limit and a starting number gives the first of these; a number that no document has is refused with an error.", "quantifier": "all trees of searchers of any depth and width, empty indexes included, all document numbers, queries, limits and starting numbers", "why_tests_cant": "trees, sizes and numbers are unbounded; tests use two or three indexes side by side", "anchors": ["c/src/search.c:msea_new,msea_get_searcher_index,msea_get_doc,msea_get_lazy_doc,msea_explain,msea_explain_w,msea_get_term_vector,msea_doc_freq,msea_max_doc,msea_search_each_w,msea_search_each_i,msea_search_unscored_w"]}
{"id": "C103", "title": "What a filter computed for a reader is kept while both live, freed once, and never given to another", "statement": "A filter asked twice about the same open reader gives what it computed first; destroying the filter or closing the reader frees everything kept for it exactly once and nothing else; nothing that was freed is ever used or given, in particular not to a filter or reader created later at the address of an earlier one; once all filters or all readers are gone nothing is left in memory. This holds whatever threads ask.", "quantifier": "all histories of creating, asking, destroying filters and opening, closing readers, all choices of addresses by the allocator, all interleavings", "why_tests_cant": "depends on the order of destruction and on addresses being used again, which tests do not control", "anchors": ["c/src/filter.c:filt_get_bv,filt_destroy_i", "c/src/index.c:co_create,co_destroy,co_hash_create,ir_add_cache,ir_close", "c/src/hash.c:h_set,h_rem,h_clear"]}
{"id": "C104", "title": "A copy of an input stream stays usable until it is closed itself", "statement": "Input streams can be opened, copied, read and closed in any order. A stream that was not closed can be read, whatever happened to the streams it was copied from, and the file is closed exactly once, when the last of its streams is. In particular a document loaded lazily can be read after the reader that produced it is closed.", "quantifier": "all sequences of opening, copying, reading and closing streams, of files of their own and of files within a compound file; any number of lazily loaded documents", "why_tests_cant": "Tests close things in one order; the claim is about every interleaving of copies and closes, and using freed memory often goes unnoticed in a test.", "anchors": ["c/src/store.c:is_clone", "c/src/store.c:is_close", "c/src/compound_io.c:cmpd_create_input", "c/src/compound_io.c:cmpd_close_i", "c/src/index.c:lazy_doc_new", "c/src/index.c:sr_close_i"]}
{"id": "C105", "title": "What is registered for cleanup is freed once, in the order of registration", "statement": "Everything registered for cleanup, and everything that the functions called by the cleanup register themselves, is freed exactly once, in the order of registration, and afterwards nothing is registered. The array that holds the registrations is never left.", "quantifier": "all lists of registrations of any length, and all functions that register more while they are called", "why_tests_cant": "A test registers a few things; the array grows at sizes that tests do not reach, and a function that registers more changes the array that is walked.", "anchors": ["c/src/global.c:register_for_cleanup", "c/src/global.c:clean_up"]}

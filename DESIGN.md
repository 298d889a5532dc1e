# Formal model of dbalmain/ferret (C library core) in Lean 4

The C sources under /repo/c are modelled function by function as total Lean
functions; the Lean sources are in `lean/Verif`.

## Layout

* `Verif/Model/*.lean`  - definitions that transcribe C functions. Every definition
  cites the file and lines it models and states each simplification.
* `Verif/Spec/*.lean`   - small, code-independent vocabulary used in theorem statements.
* `Verif/Lemmas/*.lean` - helper lemmas.
* `Verif/Props/*.lean`  - the property theorems, each with a non-vacuity `example`
  and `#print axioms`.

## Conventions

* Undefined behaviour (out-of-allocation access, NULL dereference, ...) is a distinct
  outcome (`Res.ub`), exceptions raised by the library are `Res.raise`.
* C `int` values are `Nat`/`Int` (unbounded) unless a property is about wrap-around;
  each such simplification is stated at the definition. The trusted assumption is that
  document counts, file sizes and term lengths stay below 2^31.
* Memory allocation never fails; `free` is not modelled unless stated.

## Plan per property

* **C01 Bit vector is a map from index to bit** - Model words/size/capa/count as a record with UB outcome on out-of-allocation access; refine to `Nat → Bool` by induction over the op list.
* **C02 Bit vector boolean algebra is pointwise** - Model FRT_BV_OP word by word with the destination record separate from / aliased with operand a; pointwise theorem for fresh destination, negation witness for aliased in-place ops.
* **C03 Bit vector equality and hash agree with contents** - Tail invariant (all allocated bits ≥ size equal the extension bit) ⇒ eq ⇔ extensional equality; hash computed on words.
* **C04 Bit vector scan enumerates exactly the set bits** - scan_next_from as word search; least-set-bit characterisation; enumeration by induction.
* **C05 Hash table behaves as a finite map** - Open addressing table with the real probe sequence; termination from the existence of an empty slot + full-period recurrence; refinement to an association function.
* **C06 Hash set keeps insertion order without duplicates** - Ordered list + C05-style map; refinement to duplicate-free insertion-ordered list.
* **C07 Priority queue keeps the greatest k and pops in order** - 1-based array heap with pq_up/pq_down; heap invariant; multiset + order theorem.
* **C08 Integer codecs round-trip on streams** - vint/vll/u32/i64/string codecs over byte lists; round trip for value sequences.
* **C09 Buffered output and input streams refine a byte array** - Buffer state machine over a byte array file; refinement to positional read/write.
* **C10 RAM directory behaves as a map of named files** - RAM directory state machine with reference-counted file objects; refinement to a name→bytes map.
* **C11 At most one holder of a named lock** - Transition system of clients over lock files; invariant for clients that only release what they hold; negation witness for the release-without-ownership path.
* **C12 Compound file reproduces its member files** - Byte-level writer/reader of the compound format over C08 codecs; round trip.
* **C13 Norm byte decode/encode is stable** - Bit-level model of float2byte/byte2float over BitVec 32; exhaustive kernel check of the 256-byte table (the full domain), general lemma for encode.
* **C14 Segment names and generation names are unambiguous** - Base-36 printing/parsing on lists of digits; round trip and injectivity.
* **C15 Field infos survive a write/read cycle** - Byte codec round trip over C08.
* **C16 Segment infos survive a write/read cycle** - Byte codec round trip over C08.
* **C17 Commit is atomic under crashes** - Directory as map of file contents with prefix-closed write sequences; every prefix of the commit's write sequence recovered by the reader's algorithm gives old or new.
* **C18 Stored fields round-trip** - Byte-level fdt/fdx model; round trip for all document lists.
* **C19 Term vectors round-trip** - Byte-level term-vector codec; round trip.
* **C20 Term dictionary lookup is exact** - Prefix-coded dictionary + sparse index + enumerator state machine; refinement to sorted list search.
* **C21 Postings round-trip** - Delta/freq coding of postings; round trip + deletion filter.
* **C22 Posting skip_to equals linear scan** - Skip list layout and stde_skip_to; equality with linear scan for skip_interval ≥ 3, witness for 1, 2.
* **C23 Multi-segment term enumeration is a merge** - Heap-merge abstracted to the priority queue of C07; sorted union theorem.
* **C24 Multi-segment document enumeration is a concatenation** - State machine over per-segment enumerators; concatenation theorem, witness for seek to an absent term.
* **C25 Document number to segment mapping** - Binary search over starts array; correctness for all non-decreasing arrays.
* **C26 Deletion accounting** - Deleted-docs bit vector state machine (uses C01); accounting invariant.
* **C27 Segment merge preserves live content** - Segment = docs + postings; merge as in sm_*; theorem relating contents.
* **C28 Index writer history semantics** - Writer state machine (buffer, segments, merges); refinement to list of live docs.
* **C29 Optimize terminates with one segment** - Termination measure for optimize when merge_factor ≥ 2; non-termination witness for merge_factor = 1.
* **C30 Unused-file deleter is safe and complete** - File-name classification as in deleter_find_deletable_files; safety+completeness.
* **C31 Readers have snapshot isolation** - Every call of the store that writers and readers make, with the names the code forms, as steps of a transition system over the directory of C10; invariant: a name a commit refers to is never opened for writing again. Reader opening interleaved with writers. Partial: undeleting and re-creating the index while a reader is being opened reuse names (witnesses); file-descriptor semantics of the OS are assumed.
* **C32 Stale readers cannot modify the index** - Version/lock state machine.
* **C33 Search returns the exact top page** - Bounded heap (C07) + paging arithmetic; list-sort specification.
* **C34 Multi-searcher equals searching the union** - Merge of per-searcher pages; uses C33.
* **C35 Unscored scan returns the matches in order** - Loop over scorer abstraction (sorted doc list).
* **C36 Boolean query matches by boolean logic** - Scorer tree as state machines with next; set semantics by induction on the tree.
* **C37 Scorer skip_to is consistent with next** - next/skip_to interleavings; witness for the conjunction scorer's lost exhaustion flag.
* **C38 Term scorer enumerates the postings** - 32-entry buffer state machine over the TermDocEnum of C21.
* **C39 Exact phrase matches exactly the phrase** - Position-list intersection loop; count of common shifted positions.
* **C40 Sloppy phrase requires the repeated terms** - Witness against, from sphsc_check_repeats' short bound.
* **C41 Wildcard matching is glob matching** - wc_match as recursion on byte lists; glob semantics as inductive relation.
* **C42 Prefix, wildcard and range expansion is exact** - Loop over sorted term list; filter specification.
* **C43 Typed range filter selects only numbers in range** - Loop with stale sscanf length; partial + witness.
* **C44 Fuzzy scoring computes the edit distance** - Two-row DP; equality with recursive Levenshtein distance; pruning soundness.
* **C45 Constant-score queries are repeatable** - Shared bit vector cursor; witness.
* **C46 Highlighting preserves the text** - Text assembly from offsets; strip-tags theorem.
* **C47 Match vector compaction preserves coverage** - Sort+merge of ranges; coverage theorem, witness for the empty list.
* **C48 Field length limit** - Token loop counter; exact count theorem and witness.
* **C49 Terms stay within buffer bounds** - Length guards; bound theorem and witness for length 255 of untokenized fields.
* **C50 Adding readers keeps deletions deleted** - Copy of segment without .del generation; witness and partial for readers without deletions.
* **C51 Writer lock is exclusive** - Open/close/failed-open state machine; witness.
* **C52 Sorted search order** - Comparator as lexicographic order; reuse C33 heap.
* **C53 Multi-mapper replaces leftmost-longest matches** - Automaton construction and longest-match loop.
* **C54 Growable array stores what was written** - Array with size/capa; refinement to list; UB outcome for empty pop/shift.
* **C55 Memory pool blocks never overlap** - Chunk/offset allocator; disjointness invariant.
* **C56 Equal queries hash equally** - Query syntax tree; eq ⇒ hash equality by induction.
* **C57 Concurrent term lookups are independent** - A transition system of threads in tir_get_ti_field, one shared access per step; exact field searched by whole lookups, invariant for interleaved lookups in one warm field, witnesses for shared field, first use and the index table.
* **C58 Boolean scores add up** - The scorers of C36 with an abstract exact arithmetic; score of a match = coordination factor times the sum of the matching clauses' scores.
* **C60 A query's boost survives rewriting** - The rewrite functions of C42; boost of the result equals the boost of the query, or a witness.
* **C61 Enumerating from a term starts at the first term not below it** - mte_new of C23; partial, witness for the empty term.
* **C62 An added document is found by exactly its terms** - document writer (dw_add_doc, dw_invert_field, dw_add_posting, dw_add_offsets, norms) composed with C19 and C22; invariant over histories; partial, witnesses.
* **C63 Tokenizers give exactly the runs of the text** - each `next` over the characters of the text; induction over the runs; partial (badly encoded text), witnesses.
* **C64 Token filters change exactly what they say** - each filter's `next` over the stream below; induction; partial (hyphens of empty tokens, reset half way), witnesses.
* **C66 Queries that compare equal ask the same** - eq of every kind of query over one syntax tree with addresses; soundness and completeness against the query without addresses and limits, by mutual induction; partial, witnesses.
* **C67 Sloppy phrase matches exactly where the phrase fits the slop** - Window invariant of the queue loop (last = greatest position, popped = least); soundness and completeness against windows in the document; partial, witnesses for repeated terms and later offsets.
* **C65 The standard tokenizer covers a text** - Model the generated scanner as an interpreter of its own tables (states, keys, ranges, actions), with `ts`, `te`, `act`, `skip`, `trunc` as variables and reading past the end as undefined. Prove the loop sound against per-state facts (bounds on `skip` and `te`), computed outside, written down as a literal and checked by the kernel for every state; then by induction on the text. Witnesses for an empty match that ends the tokens and for a cut left over from a match given up.
* **C68 The UTF-8 standard tokenizer** - The same interpreter with the tables of scanner_utf8.c. Prove that for signed char, and for ASCII texts, it does the same as the ASCII scanner: a relation of states, patterns and cells, written down and checked by the kernel, then a simulation by induction on the steps. Witnesses for dropped letters (signed char) and for reading past the end and swallowed spaces (unsigned char).
* **C69 The spans of a span query** - Each enumerator (term, multi-term, first, or, near, not) as a machine with next/skip_to/current, over abstract children; a contract (what is left, in order, and what a jump may do) proved for each; nesting by levels. Semantics of each query as a relation between the index and a list of spans, by recursion on the query. Witnesses for the queue read when empty, a term near itself, and texts missed when clauses are longer than a position.
* **C70 Searching with a span query** - The scorer as a machine over any span enumerator that keeps the contract of C69; prove the scorer contract of C36 for moves with next, hence the hits and scores of a search, and of boolean queries whose scorer does not jump with a span clause. Witnesses for jumps: lost, repeated and wrongly reported documents.
* **C71 Highlighting with a span query marks the terms inside its spans** - The enumerator over a term vector as one more source of positions for the enumerators of C69; prove it keeps their contract when the term is in the vector; compose with the compaction of C47 and the marking loop. Witnesses: no span, a term that is not in the vector, any of several terms.
* **C72 Reads through an Index show every earlier write** - Model/Ind.lean models ind.c over readers and writers reduced to documents by number, version and lock; an invariant relates the open reader or writer to the contents; the history is compared with Spec/Ind.lean (Hist). Witnesses: the reader of an index without segments always counts as up to date; index_delete_term uses an old reader; a refused index_add_doc removes the lock of another process.
* **C73 A keyed Index keeps one document per key** - From C72: each add replaces what the key fields of the document match; with exact keys that is at most one document. Witnesses: documents that lack a key field; a race that loses both documents.
* **C74 Cleaning a query text keeps its words and leaves it well formed** - model qp_clean_str character by character with the capacity of its allocation; prove a weight invariant for the bounds, and by induction over the text that the output reads as matched and escaped; witnesses for backslashes at the end and inside quotes
* **C75 Words of a query are read as written** - model get_word and yylex with the capacities of both buffers; prove by induction over the text that no write leaves them and that a word given by pieces is read back; witnesses for pairs of colons, keywords and escaped wild cards
* **C76 Parsing a query text always ends, and gives only what the text means** - model the automaton of the parser with its tables, the actions and the functions they call; the stack is a path of the automaton in which each entry stands for a tree written with the tokens read for it, each of the 50 reductions keeps that and makes a weight smaller. Fails for texts that are not tame and for ranges out of order: witnesses.
* **C77 Every query of the query language can be written, and is read as what it means** - the converse of C76: the moves of the automaton are driven through every tree (Lemmas/QDrive*), ending in acceptance with the meaning of the tree as the result; typed texts (Spec/QWrite) are lexed back to the words and marks and left alone by cleaning. Ambiguity of `w~ x` shown by a witness.
* **C78 What words, phrases and patterns of a query text ask for, in one field and in several** - Over the model of the parser's actions (Model/QParse): positions as sums of increments by induction over the loops; fields independent of each other by an invariant on what the actions leave behind.
* **C79 Filters and filtered queries restrict searches exactly** - model the filtered scorer, the bits of a query filter with their cache, and the search loop with filter and post filter; prove that the filtered scorer fulfils the contract of scorers, that its hits are the filtered hits of its query, and over histories that deletions never make the kept bits wrong; witnesses for undeletion, missing scorers and constant-score queries.
* **C80 Exceptions run the parts of blocks once and end as they say** - A machine with frames for setjmp, a stack of contexts and longjmp (Model/Except), against a big-step reading of the documentation without stack or jumps (Spec/Except); simulation by induction on programs. Programs outside the fragment have witnesses: cleanup parts begun again for ever, case parts that raise what they catch, FINALLY parts that are skipped.
* **C81 Opening an index while another process commits** - The loop with a directory of its own for each access (Model/FindLive), the writer as a list of events built from sis_write; stages of the writer as what a reader can see (Spec/FindLive), an invariant of the loop between rounds against a monotone schedule of stages, and a proof that every prefix of the events shows its stage. Witnesses: generation 0, cut field infos, version of a commit not finished.
* **C82 An explanation of a document gives its score** - Model weights (q_weight, sums of squares, normalisation) and explanations over exact arithmetic (Model/Explain); prove by induction on the query that the explanation is the score of the scorers of C36/C58 for hits and zero for other documents; witnesses for constant-score clauses, filters, absent fields, zero norms and numbers out of range.
* **C83 Searching again with a query gives the same result** - Model query objects as a heap that rewriting writes to; invariant of what objects stand for between searches, by footprints; prove that every search of every history weighs what is asked; witnesses for nested one-clause queries, shared clauses, prohibiting queries
* **C84 Excerpts are tagged parts of the text that show the best matches** - Model the loops of searcher_highlight over the queue model of C07 and the match vector of C47; prove the queue with changing scores gives a greedy choice, and that merging and expanding keep excerpts within the text.
* **C85 Highlighting marks what the query asks for** - Model the term vector look up by binary search, the position iterators with their priority queue and the match functions of each query (Model/Marks). Prove by induction on the query that the ranges added are those the specification asks for (Spec/Marks); witnesses for words read as numbers, phrases without parts, with one part, and moved forward.
* **C86 The text of a query is put together from its parts without writing outside the memory allocated for it** - Model buffers as their size and what is written, with undefined behaviour when something does not fit; model vstrfmt, dbl_to_s and every to_s; specify the text by recursion over the query without buffers; prove equality by induction over queries, clauses, span lists and filters, and the failures for every list of 40 or more clauses, every infinite boost and every non-empty result.
* **C87 The text of a query, parsed, gives back the same query** - Give the tree of the query language that the text of a query is written as, show by induction over queries that the lexer reads the text as its tokens, that cleaning keeps it and that the tokens are tame, and use the theorems about trees (C77), leaves (C78) and texts (C86); boosts are compared through an interpretation of parsed queries as queries with boosts.
* **C88 Searching for many terms at once** - modelled in Model/MultiTerm.lean (wrappers with their read buffer, the queue made by the first call, next, skip_to, explain, the scorer made with the term enumerator of C20). Proved with an invariant on the queue: the entries of all wrappers after the current document are, as a multiset, those of the terms.
* **C89 The legacy standard tokenizer gives parts of the text, in order, leaving nothing out** - model each scan as a function of the remaining bytes, with reads before the text and writes after the buffer as undefined; one step gives a part of the text after the last; induct over steps; for words, one lemma for each kind of word at any place, and induct over the words.
* **C90 A store on disk behaves as a store in memory** - the operating system as a table of paths and files; a relation between it and the directory of Spec/Dir is kept by every call, and C10 has the same for the store in memory; sharing of stores as a transition system of threads.
* **C91 A MultiSearcher finds in each searcher what the query finds there alone** - queries as trees, rewriting, combining and weighing as functions; induction on the tree with the polarity of patterns; partial because patterns in clauses that prohibit let excluded documents through, proved by a witness, and because more than 1024 clauses are refused.
* **C92 Queries are freed once and only when nobody uses them** - Model/RefCount.lean: memory as a list of objects with counts and owned references; reading or writing an object with count 0 is undefined. Invariant: the count of everything is the number of references to it. Induction over programs, with lemmas for rewriting and weighing. Witnesses for the similarity that is freed twice, for leaks after exceptions and for queries changed by searching.
* **C93 Norms that are set are the norms that are read** - Model/Norms.lean: readers with caches, files by name and generation; Spec/Norms.lean: a byte for every document and field. Simulation by induction over the operations; distinct file names by C14, documents of segments by C25. Witnesses for unchecked document numbers, the wrong cache entry, memory that is not cleared, freed arrays and span queries without norms.
* **C94 A reader of several indexes reads every field by its name** - mr_open is modelled over tables of field infos (C15); proved that the map gives the number of the name in each index, or one that the index does not have; then C23 and C93 carry over. Not modelled: readers of indexes with several segments given to mr_open.
* **C95 Changes through a reader of several indexes are guarded by the locks of the indexes** - Several indexes of the model of C51; a history is projected to each index. Deletions are not guarded: witnesses; the theorem is for norms.
* **C96 Streams of tokens are independent of each other** - memory as a list of counted objects; a world without memory in Spec/Streams.lean; refinement by an invariant (counts, distinct tokenizers) over whole programs
* **C97 Documents keep what is put into them and are freed once** - Model/Documents.lean models the functions on a memory of blocks with arrays of the allocated length, a table of symbols, and buffers of the allocated size; Spec/Documents.lean has fields as names and texts and documents as fields by name. Proof by simulation, call by call. Witnesses where memory is freed twice, texts are cut and arrays of texts are refused.
* **C98 A store copied into memory has the same files** - Model/CopyStore: copy_files over either kind of store (Model/RamDir, Model/FsDir) into Model/RamDir. Proved by simulation: the store copied reads as the directory of Spec/Dir does (from the refinements of C10 and C90), and induction over the names listed. Witnesses for names that are skipped, long files and stores changed meanwhile.
* **C99 Enumerations, lookups and deletions by term agree while documents are deleted** - Model/EnumDel: readers of segments with a pointer to their vector of deleted documents in a heap; enumerations copy the pointers. Proved by an invariant relating pointers to what is deleted, kept by every call, and induction over histories; for deleting by a term induction over the loop. Witnesses for enumerations that do not see deletions and for freed vectors.
* **C100 A segment put into a compound file reads the same** - model packing and opening of a segment; prove that the names opened are the names packed, then C12 for the contents; witnesses for a failure while packing and for an old compound file.
* **C101 Threads reading the same file through their own streams read what is in it** - Threads step between their accesses to the shared offset; an invariant relates each thread to the reader of the file alone. Proved for all schedules for streams in memory and for streams with descriptors of their own; for clones and compound files proved when whole commands take turns, with schedules that read the wrong bytes as witnesses.
* **C102 A searcher over several searchers numbers all documents through, and gives what it reported when asked for it** - A tree of searchers whose leaves answer as they like; every function is followed down the tree and compared with the list of the leaves, by induction on the tree. Negative numbers are witnesses of undefined behaviour.
* **C103 What a filter computed for a reader is kept while both live, freed once, and never given to another** - Memory with both tables and the cache objects, using a freed one being undefined; an invariant says that both tables hold the same objects, and all operations are compared with a table of what is kept. Two threads putting at once are a witness.
* **C104 A copy of an input stream stays usable until it is closed itself** - Streams as handles sharing a counter; run any list of operations against a specification of who may use what; an invariant ties the counter to the number of streams not closed. Witness: a lazily loaded document of a packed segment read after the reader is closed.
* **C105 What is registered for cleanup is freed once, in the order of registration** - The array as slots written or not, with its capacity; an invariant says the first slots are what was registered; the loop is followed to its end with the equation freed = registered ++ what those freed registered.

## Trusted base

* Lean 4.33.0 kernel; axioms `propext`, `Classical.choice`, `Quot.sound` only
  (printed by `#print axioms` next to each property theorem).
* The reading of the C code into the model (cited line by line).

<!-- generated by tools/design.py -->

## What is modelled

One entry per model file; the line numbers are at each definition. What a file does not say it models is not modelled.

* `Verif/Model/Analysis.lean`: Tokenizers and token filters: c/src/analysis.c 17–55 (tk_set, tk_set_ts, w_tk_set), 157–171 (mb_next_char), 248–259 (non-tokenizer), 285–391 (whitespace tokenizers), 422–529 (letter tokenizers), 1136–1197 (stop filter), 1218–1229 (mapping filter), 1271–1328 (hyphen filter), 1343–1388 (lower case filters), 1411–1431 (stem filter), 215–223 (a_standard_get_ts); c/src/scanner_mb.rl 119–145, 198–199 (how the multi-byte standard tokenizer writes a token). Texts are the bytes before the terminating zero. `isspace`, `isalpha`, `tolower`, `mbrtowc`, `wcrtomb`, the `isw…` functions and the stemmer are parameters. A stream of a tokenizer is what is left of its text as the sequence of characters successive calls of mb_next_char give (single-byte tokenizers: one byte each), and where it begins; mbrtowc is taken to keep no shift state between characters. `tk->text` and `tk->len` always agree, so a token is a `Spec.Token`. The stream below a filter is the list of tokens it is yet to give: filters change the token in place, and the stream below overwrites it before it gives the next. `int` overflow of `pos_inc` is not modelled. A hash of stop words is a list (C05).
* `Verif/Model/Array.lean`: Model of the growable array, c/src/array.c and c/include/array.h: all functions but ary_destroy_i. The memory of the array is the list of its cells, of which there are as many as were allocated; touching any other cell is undefined. The elements are pointers, `none` for NULL (the element size is that of a pointer, 8 bytes; the arrays of another element size use only ary_resize_i). Cells that realloc adds hold an arbitrary value `junk` until written. `int` arithmetic that overflows is undefined.
* `Verif/Model/Basic.lean`: Results of calls: a value, a raised exception or undefined behaviour.
* `Verif/Model/BitVector.lean`: Model of the growable bit vector, c/include/bitvector.h and c/src/bitvector.c. Simplifications: C `int` indices are `Int` (no overflow of `bit + 1`), `1 << 31` is taken to be the two's complement bit pattern, allocation never fails, reference counts are not modelled.
* `Verif/Model/BoolQuery.lean`: Model of evaluating a boolean query: `bq_rewrite`, building the scorers (`bw_scorer`), and the loops of the searcher that drain a scorer. Simplifications. * Leaf queries are abstract: `mkLeaf l` is the scorer their weight makes (`none` = NULL) and they rewrite to themselves (`q_rewrite_i`); prefix, wildcard, range and fuzzy queries, which rewrite to other queries, are leaves here. * Boosts and the query norm are not modelled (they are inside the leaf scores). * `max_clause_cnt` (bq_add_query) is not enforced by the code and not modelled.
* `Verif/Model/CacheObj.lean`: What filters keep about readers: the cache objects of c/src/index.c 170–211, with filt_get_bv and filt_destroy_i of c/src/filter.c 12–39, ir_add_cache and the part of ir_close that frees the cache (index.c 4142–4183), and h_set, h_rem, h_clear of c/src/hash.c as far as they free values. A filter's table has a cache object for each reader, a reader's table has the same objects for each filter; freeing an object takes it out of both, also while one of the tables is being freed. The tables are lists of active entries here (that a hash table is a map is C05; the order in which h_clear meets the entries is that of the list). Addresses are numbers, and are used again after they were freed; a cache object's address is not, so that using a freed one is seen. Reference counts of filters and readers are not modelled: `delF` and `delR` are the last ones.
* `Verif/Model/Cleanup.lean`: What is registered to be freed at the end: register_for_cleanup and clean_up (c/src/global.c 327–363). The array is a list of slots that have been written or not; the functions that free are given by what they register themselves while they run. Sizes are unbounded; one thread. That a function called by clean_up calls clean_up is not modelled.
* `Verif/Model/Combine.lean`: Searching several searchers with one query: c/src/search.c 369–420 (q_combine), 1759–1777 (msea_rewrite), 355–366 (q_weight), 1471–1482 (msea_doc_freq); c/src/q_boolean.c 1339–1408 (bq_rewrite), 1241–1250 (bw_new). A query is rewritten by every searcher of a MultiSearcher, the results are put together by q_combine, and the weight that is made of them is used with every searcher. Weights of clauses are made by rewriting and putting together again. Simplifications. * Leaves: `own`, which rewrites to itself (terms, phrases, ranges, which need no index to be rewritten), `pattern` (prefix, wildcard, fuzzy), which rewrites to the query for the terms that a searcher has for it, and `many`, which is that query (C42, C88). * Boosts and scores are not here. Of `coord_disabled` there is the flag. * The set of queries in q_combine is a list in the order of adding, where a query is added unless one is there that `same`, which is q_eq, says is equal (C06 for the set, C66 for q_eq). * isea_rewrite, search.c 1217–1229, is one pass of bq_rewrite: another one finds nothing more to expand. * A weight is the query it is made of; recursion is bounded by fuel.
* `Verif/Model/Compound.lean`: Compound files (c/src/compound_io.c). Output streams write at a position (C09); typed values are their bytes (C08). The set of ids and the table of entries are searched by name (C05, C06).
* `Verif/Model/ConstScore.lean`: Constant-score queries over a query filter: c/src/q_const_score.c 26–56 (cssc_next, cssc_skip_to, cssc_new) and c/src/filter.c 24–38, 105–120 (filt_get_bv, qfilt_get_bv_i). The filter's cache is keyed by the reader; the bit vector in it is shared, so a scorer is the key it was made with. What the filter's query matches in a reader is given as the list of documents its scorer goes through. Caches are not dropped while the reader is open (co_create, hash.c, destroys an entry only with the filter or the reader).
* `Verif/Model/CopyStore.lean`: Copying a store into memory (ram_store.c): copy_files 443–461 and open_ram_store_and_copy 463–477, which a RAMDirectory made from another directory uses (ruby/ext/r_store.c 300–328), from a store in memory (Model/RamDir) or on disk (Model/FsDir). Simplified: the names are listed first and copied then (`each` calls the function for a name when it comes to it: the copying does not change the names of the store that is copied); the length of the stream that was opened is that of the file of the name, which is the file that was opened; MEM_ERROR is `Err.exception`. Not modelled: `close_dir`, with which the store that is copied is closed afterwards (C90, C92), and a store that lies in a compound file, which cannot list its names.
* `Verif/Model/Deleter.lean`: The deleter of unused files (c/src/index.c 3620–3860). Removing a file is taken to succeed: what fails stays in the pending set and is tried again.
* `Verif/Model/Documents.lean`: Documents and their fields as objects in memory: c/src/document.c 12–155 (df_new, df_add_data_len, df_add_data, df_destroy, df_to_s, doc_new, doc_add_field, doc_get_field, doc_to_s, doc_destroy), c/src/symbol.c 15–36 (intern, intern_and_free), c/src/global.c 174–181 (strapp), c/src/ind.c 260–277 (index_add_string, index_add_array). Memory is a list of blocks; an address is a position in it and is not used again. A block that was freed is `gone`: to read it, to write to it or to free it again is undefined. The arrays of a field and of a document have the length that was allocated; a slot nothing was written to is `none`, and to read it is undefined, as is reading or writing beyond the end. Simplifications. * The two arrays of a field (data and lengths) are one array of pairs. They belong to the block of the field, as the array of fields and the dictionary belong to that of the document. * The dictionary of a document is a list of symbols and addresses in the order they were put in (C05); doc_destroy frees the fields in this order, h_destroy in that of the table. * A symbol is its position in the table of symbols; the table is a list (C05). Symbols are never freed (hash_finalize). * Boosts are not here: they are set and read directly. `is_compressed` of a field made by df_new is never read. * What a text is printed into is a list of the bytes written so far together with how many were allocated. * A call that raises leaves memory as it was: doc_add_field raises before it changes anything.
* `Verif/Model/EnumDel.lean`: Enumerations of documents of a reader through which documents are deleted (index.c): stde_new 3090–3120, stde_next 2939–2967, stde_skip_to 2999–3062, mtde_next_tde 3243–3257, mtde_next 3316–3329, mtde_skip_to 3356–3369, mtde_new 3410–3421, sr_delete_doc_i and sr_undelete_all_i 4330–4351, sr_is_deleted_i 4280–4283, sr_is_deleted 4578–4587, sr_term_docs 4542–4545, mr_is_deleted 4868–4878, mr_delete_doc_i 4891–4900, mr_undelete_all_i 4902–4915, ir_delete_doc 4031–4040, ir_term_docs_for 4080–4087, ir_get_doc_with_term 4044–4055; and the lookups of an Index (ind.c): index_term_id 324–334, index_get_doc_term 338–352, index_get_doc_id 355–357, index_delete_term 370–391, index_delete_id 394–396. The vectors of deleted documents are objects in a heap: an enumeration keeps the pointer that the reader of its segment had when it was opened, and undoing deletions frees the vector. Using a freed vector is `Res.ub`. Simplified: the postings of a term in a segment are the list of its documents (C21), skipping with the skip list passes over those before the target (C22), the reader of a segment is found by adding sizes (C25), a vector is the list of the numbers set in it (C01), a term includes its field. Not modelled: committing (AUTOFLUSH_IR in index_delete_term; C72), which leaves the vectors alone, the write lock (C51, C95), seeking an enumeration again (C24).
* `Verif/Model/Except.lean`: Exceptions: the macros of c/include/except.h 114–143 (FRT_TRY, FRT_XENDTRY, FRT_ENDTRY, FRT_XFINALLY, FRT_XCATCHALL, FRT_HANDLED) and the functions of c/src/except.c 36–101 (xpush_context, xraise_context, xraise, xpop_context), as a machine for programs made of statements, blocks and RAISE. setjmp remembers what follows the block, longjmp goes there. Simplifications. * Other statements are observable marks. A called function is its body; RETURN_EARLY and `return` inside blocks are left out. * The blocks are those the library and the documentation use: a body with XFINALLY, with XCATCHALL, with one group of `case` labels (XENDTRY), and with one group of `case` labels and `case FINALLY` (ENDTRY). Bodies and cases end with `break`. * Codes are those of exceptions (2 and more): a raised 0 or 1 would be taken for BODY or FINALLY. * HANDLED names the innermost block around it, which is the top context; in a FINALLY part it is not, and programs with HANDLED there are not modelled (`Spec.smooth` excludes them). It does not compile outside blocks. Exceptions no block catches end the program (XEXIT). * One thread; every thread has a stack of contexts of its own (except.c 28–34).
* `Verif/Model/Excerpt.lean`: Excerpts, c/src/search.c 645–786 and 853–963: excerpt_new, excerpt_lt, excerpt_start_cmp, excerpt_recalc_score, excerpt_expand, excerpt_get_str and searcher_highlight, from the match vector on. Scores are sums of ones, integers here. An excerpt is known by its first match while it is in the queue, as no two excerpts of the queue begin with the same match: where the code compares pointers, its first match is compared. For the same reason there is one way to sort excerpts by their first matches, and `qsort` is an insertion sort. The number of excerpts is not negative. Reading the matches before the first or after the last is `.ub`, as is the overflow of the length of all excerpts together, and writing more than was allocated. Offsets and lengths are small enough for the sum of two to be an `int`. Excerpts are values: that each is freed once is not modelled.
* `Verif/Model/Expand.lean`: Queries over many terms: c/src/q_wildcard.c, q_fuzzy.c, q_prefix.c, q_multi_term.c, q_range.c. Strings are lists of bytes other than NUL; the end of the list is the NUL.
* `Verif/Model/Explain.lean`: Weights of queries and explanations of scores: c/src/search.c 233–249 (w_sum_of_squared_weights, w_normalize), 355–366 (q_weight), 1231–1239 (isea_explain); c/src/q_term.c 96–109, 155–229, 236–251 (tsc_explain, tw_explain, tw_new); c/src/q_boolean.c 1105–1160, 1179–1263 (BooleanWeight, bw_explain); c/src/q_match_all.c 79–106; c/src/q_const_score.c 42–103; c/src/q_filtered_query.c 118–131; the first lines of phw_explain (c/src/q_phrase.c 613–615), multi_tw_explain (c/src/q_multi_term.c 395–398) and spanw_explain (c/src/q_span.c 1415–1417). Simplifications. * Queries are given as rewriting leaves them (searcher->rewrite in q_weight, search.c 357, and in the q_weight of every clause, q_boolean.c 1249, changes nothing more; rewriting is in BoolQuery.lean). * Of an explanation only the value is kept; the texts and the tree of details are not. * Numbers are an abstract type `S`; float rounding is not modelled. * Leaves are terms, all documents, constant-score queries, and phrase, multi-term and span queries over a field that the index does not have (`absent`). Phrase, multi-term and span queries over fields the index has are not in this file. * The scorer of a constant-score query goes through the documents of its bits as the one of all documents does through those not deleted (its sharing of the bits is in ConstScore.lean). * Postings are given without deleted documents (stde_next, index.c 2939–2968).
* `Verif/Model/FieldInfos.lean`: Field infos (c/src/index.c 213–460, c/include/index.h 73–152). Symbols are interned strings, so they are compared by content (c/src/symbol.c); the dictionary of a table, a hash table, is a search of its fields by name (hash tables refine finite maps: C05). Boosts are the 32 bits of the float. Streams carry bytes (C08, C09). Names are C strings and hold no NUL.
* `Verif/Model/Fields.lean`: Stored fields and term vectors, c/src/index.c 1195–2024 and c/src/document.c 109–122: writing documents (fw_add_doc, fw_add_postings, fw_write_tv_index), reading them whole (fr_get_doc), lazily (fr_get_lazy_doc, lazy_df_get_data, lazy_df_get_bytes), and reading term vectors (fr_read_term_vector, fr_get_tv, fr_get_field_tv, sr_term_vector). Streams carry bytes (C08, C09); the temporary buffer of fw_add_doc is a list of bytes. (Copying it, ramo_write_to reads one pointer too many when its length is a multiple of 1024, see C09; that is not repeated here.) The compression library is a parameter `Zip`; the loops around it are those of the code. A loop around it that makes no progress and goes on until an `int` overflows is undefined behaviour here. A count or length read from a file that does not fit an `int` is undefined. That the data of one field together fits an `int` is assumed.
* `Verif/Model/FilterQuery.lean`: Filters and filtered queries: c/src/q_filtered_query.c 14–80, 124–131 (FilteredQueryScorer, fqw_scorer), c/src/filter.c 24–38, 105–120 (filt_get_bv, qfilt_get_bv_i), and searching with a filter and a post filter, c/src/search.c 1135–1175 (isea_search_each_w, isea_search_each). Simplifications. * Queries and scorers are those of BoolQuery.lean; the bits of a filter those of BitVector.lean. * A post filter gives a factor for a document and its score, `none` for 0; it has no effects of its own. * A reader is an index of terms with a set of deleted documents: postings are given without the deleted ones, as stde_next leaves them out (index.c 2939–2968). One thread; what else changes a reader is not in this file. * The cache of a filter is for one reader (filt->cache holds one entry per reader, see ConstScore.lean).
* `Verif/Model/FindLive.lean`: Finding the segments file while another process commits (c/src/index.c 832–1006): the same loop as in Model/SegmentInfos, but every access of the directory sees it as it is then. A round of the loop accesses the directory five times: it lists the names, it reads the file "segments", it reads the segments file of the generation, it asks for the one before and reads that. `look t` is the directory at access `t`; accesses a round does not make see nothing. Simplifications. A segments file is read at one moment (it is only appended to, so a reader that takes its time sees no other bytes, at most more of them). Sleeping is letting others go on, which `look` may do at any access.
* `Verif/Model/FsDir.lean`: Model of the store on disk: c/src/fs_store.c 38–350, all but the streams' buffers (C09) and the locks (C11). The operating system is a table from path names to files. Two paths name the same file only if they are the same string: no links, and no `.` or `..` in paths. Of the errors of the operating system, there are: a file that does not exist, and paths that it refuses to open or create (`deny`); removing and renaming fail only for files that do not exist. readdir gives the names of the directory at the time of opendir, in some order, and without `.` and `..`, which every loop here skips (their first byte is under '/', and they are no locks). Descriptors are numbered by their kind in the order in which they are opened; `fd0` says that the descriptor 0 is free when a file is touched.
* `Verif/Model/FsShare.lean`: Model of how stores on disk are shared: open_fs_store, fs_store.c 479–501, store_deref, store.c 36–45, and fs_close_i, fs_store.c 423–428, with the threads that call them. The steps of different threads interleave in any way. What a thread does while it holds `stores_mutex` or `mutex_i` is cut where another thread may see it: at each read and each write of `ref_cnt`, which is not guarded by one mutex (open_fs_store holds `stores_mutex` and `mutex`, store_deref `mutex_i`). `mutex`, which is locked by nobody else meanwhile, is left out. A step of a thread that has to wait for a mutex is not possible. Stores live in a heap, `none` once freed; using a freed one is undefined. That fs_destroy destroys `mutex_i` while it is locked is not looked at, and neither is that it clears locks, which is FsDir.destroy.
* `Verif/Model/Hash.lean`: Model of the hash table, c/src/hash.c. Simplifications: allocation never fails; freeing keys and values is not represented; the table is a list of `mask + 1` entries whether it lives in `smalltable` or in allocated memory; `unsigned long` is 64 bits wide. The probe index `i` is an `int` in C, computed modulo 2^32 and only used as `i & mask`; here it is a natural number used modulo the size of the table, which is a power of two, so the indices are the same.
* `Verif/Model/HashSet.lean`: Model of the ordered hash set, c/src/hashset.c: a doubly linked list of entries together with a hash table from elements to entries. The entries live in a heap: a list of cells, `none` once freed, addressed by position. Following a NULL pointer or using a freed cell is undefined. Freeing elements is not represented.
* `Verif/Model/Ind.lean`: Model of an Index (ind.c), which opens and closes readers and writers as its calls need them: INDEX_CLOSE_READER 10–19, AUTOFLUSH_IR 21–24, AUTOFLUSH_IW 26–33, index_flush 108–117, ensure_writer_open 119–129, ensure_reader_open 131–145, ensure_searcher_open 147–153, index_size 155–165, index_optimize 167–176, index_del_doc_with_key_i 202–238, index_add_doc_i 240–248, index_get_doc 304–310, index_delete 359–368, index_delete_term 370–391, index_delete_query 404–414. Of the reader and the writer the model has what the Index relies on: documents by number with whether they are deleted, the version, the write lock, what is not yet committed (index.c: ir_acquire_write_lock 3882–3918, ir_delete_doc 4031–4040, ir_commit_i 4100–4133, sr_is_latest_i 4392–4395, mr_is_latest_i 4926–4936, ir_open_i 5102–5149, iw_add_doc 6335–6350, iw_commit_i 6352–6357, iw_delete_term 6366–6398, iw_optimize_i 6439–6453, iw_close 6462–6482, iw_open 6484–6525). What segments there are is reduced to their number; what flushing and merging does to numbers is a parameter of each call (C27, C28). A search gives the live documents that match, in order (C35, C36). Other processes have one writer at a time. Each call is atomic, except that another process may open a writer after an Index closed its reader and before it opens its writer (`grab`). The build is the one of the Ruby binding, without threads: in the threaded build an exception leaves the mutex of the Index locked (ind.c 157, 252, 361, 373, 407).
* `Verif/Model/Invert.lean`: The document writer: dw_add_posting, dw_add_offsets, dw_invert_field, dw_add_doc, dw_sort_postings and the norms and posting lists given to dw_flush, c/src/index.c 5196–5265, 5335–5365, 5401–5413, 5509–5690. The analyzer is a function from a field's name and a text to tokens. The hash tables of posting lists, keyed by text, are lists in order of insertion (C05); texts have no zero byte, so `strcmp` is the order of lists of bytes. `dw->curr_plists` points to posting lists of the field: it is the list of their texts. The capacity of `dw->offsets` is not modelled, as what it grows by is zeroed. The fields writer (`Model/Fields`) gets its calls for one document after the document is inverted. Norms are a function of the field, the document's number (boosts) and the number of terms (`Model/Norm` has the byte). Sums of positions are `int`s.
* `Verif/Model/Legacy.lean`: The legacy standard tokenizer: c/src/analysis.c 643–1069 (legacy_std_get_alpha, mb_legacy_std_get_alpha, isnumpunc, isurlpunc, isurlc, isurlxatpunc, isurlxatc, legacy_std_is_tok_char, mb_legacy_std_is_tok_char, legacy_std_get_number, legacy_std_get_apostrophe, mb_legacy_std_get_apostrophe, std_get_url, legacy_std_get_company_name, legacy_std_advance_to_start, mb_legacy_std_advance_to_start, legacy_std_next, and the two constructors). A text is the bytes before its terminating zero, a pointer into it the number of bytes before it; a scan from a pointer is a function of the bytes from there, and ends at the end of the text because no predicate it asks holds of zero. `<ctype.h>` and `<wctype.h>` are parameters; `isalnum` is `isalpha` or a digit. The array `token` of 256 bytes is represented by what it holds: always bytes of the text, so only where it is written is kept track of. A read before the first byte of the text and a write after the array are `.ub`. Lines 997–999 are left out: `t` and `num_end` are never before `ts->t`. `int` does not overflow.
* `Verif/Model/Lock.lean`: Model of locks: fs_store.c 352–414 and ram_store.c 377–416, with the clients in index.c 6484–6514 (iw_open), 6474–6476 (iw_close), 6175–6181 (index_is_locked), 3891–3908 (ir_acquire_write_lock). One lock name, any number of clients; a client is a thread or a process with its own Lock object. The steps are the system calls on the lock file, or the calls on the in-memory directory, each atomic; the steps of different clients interleave in any way. Errors other than "the file exists" are not modelled, nor the sleep between two tries.
* `Verif/Model/Lookup.lean`: Lookups of terms through one reader by several threads (c/src/index.c 2084–2113, 2142–2148, 2268–2295, 2633–2682). The field of the reader and the tables of index terms are shared; each thread has its own enumerator, with a stream of its own (threads reading one file descriptor are not modelled, nor is the array the enumerators are kept in for closing). A step is a piece of a lookup that reads or writes what is shared at most once; memory is sequentially consistent. Filling a table is one step, after the one that allocates it.
* `Verif/Model/Marks.lean`: What highlighting marks: the `get_matchv_i` functions of the queries about words, c/src/q_term.c:303-317, c/src/q_multi_term.c:603-622, c/src/q_range.c:465-496 and 558-638, c/src/q_phrase.c:718-946, c/src/q_boolean.c:1326-1337 and c/src/search.c:435-440, with the search for a term in a term vector, c/src/term_vectors.c:27-73. Simplifications. * A term vector is its field and its terms with their positions: `freq` is the number of positions (C19). It has positions (c/src/search.c:635 and 853 look whether it has). * Positions, offsets and slops are unbounded integers. The field `index` of a `TVPosEnum` is one less than `seen` here. * `qsort` of the phrase positions is any function `qs`. That the positions of the query stay sorted afterwards is not modelled: it is the same phrase. * `sscanf` is a function `scan` as in C43: an empty bound of a typed range is not a number here. * Fuel of loops is enough, or the outcome is `.ub`. What is allocated is freed: this is not modelled.
* `Verif/Model/MatchVector.lean`: Match vectors and the highlighting of a whole field, c/src/search.c 509–616 and 788–834: match_range_cmp, matchv_add, matchv_compact, matchv_compact_with_breaks, matchv_set_offsets and highlight_field. `qsort` is any sorting: the compacting functions here take the ranges sorted. Positions are `int`s whose successor is an `int`. Scores are sums of ones, exact as floats below 2^24; they are integers here. The memory after the ranges of a match vector is not initialised.
* `Verif/Model/MemPool.lean`: Model of the memory pool, c/src/mempool.c: all functions but mp_destroy. The memory is the list of chunks obtained from malloc, each with its bytes (arbitrary at first, `junk`); a pointer is the number of a chunk and an offset into it. Writing or reading past the end of a chunk is undefined, as is the overflow of an `int`. The rounding of sizes on Solaris (29–31) is left out.
* `Verif/Model/Merge.lean`: Merging segments, index.c 5693–6159: the postings and the dictionary (sm_append_postings, sm_merge_term_info, sm_merge_term_infos, sm_merge_terms), the stored fields (sm_merge_fields), the norms (sm_merge_norms) and the numbers that documents get (smi_new, smi_load_doc_map, sm_create). Simplifications: streams carry bytes (C08, C09); an input stream is a file and a position in it. A segment is in the queue as its term, its base and its index, as it is never changed while it is in it. Numbers of documents do not overflow. A failed assert is undefined. Terms are values: the buffer they are copied to (sm_cache_term) is modelled on its own, see `cacheTerm`.
* `Verif/Model/MultiDocEnum.lean`: The enumerator of the documents, and positions, of a term over several segments, index.c 3229–3442. Simplifications: the sub readers are segment readers, so the sub enumerators are those of `Verif.Model.Postings` and index.c 3281–3283 is not reached; curr_tde is the index of the sub enumerator it points at; document numbers do not overflow.
* `Verif/Model/MultiLock.lean`: Changes that are made through a reader of several indexes, and the write locks of the indexes: mr_open, index.c 5039–5095, with ir_setup 3923–3944, ir_acquire_not_necessary 3877–3879; ir_set_norm_i 3972–3979 with mr_set_norm_i 4879–4889; ir_delete_doc and ir_undelete_all 4024–4041 with mr_delete_doc_i and mr_undelete_all_i 4891–4914; ir_commit_i 4100–4133 with mr_commit_i 4936–4944. What writers and readers of one index do is `Verif.Model.WriterLock`. A reader of several indexes with number `m` reads index `i` with the reader `m` of that index, which it opened (or was given). What is set, deleted or committed is not modelled, nor is what happens after an exception in the threaded build.
* `Verif/Model/MultiMapper.lean`: The multi-mapper: c/src/multimapper.c 15–334 (lstate_new, lstate_next, lstate_is_match, ndstate_add, ndstate_next, mulmap_new, mulmap_add_mapping, mulmap_process_state, mulmap_compile, mulmap_map_len, mulmap_dynamic_map). Strings are the bytes before the terminating zero. The array of nondeterministic states keeps its capacity, and writing past it is undefined behaviour. A set of states, a bit vector in the code, is a number; the hash from sets to deterministic states is a search through them for the set (bv_eq and bv_hash, C03; the hash, C05). The table `next[256]` of a deterministic state starts as all `dstates[0]`; it is kept as the list of what was set since. The recursion of mulmap_process_state has a bound that `processState_ok` shows is never met. mulmap_free_dstates leaves no automaton: using one then is undefined behaviour, as is using `to` after `erealloc(to, capa)`, whose result the code drops. Reference counts are not modelled.
* `Verif/Model/MultiOpen.lean`: A reader of the indexes of several readers: mr_open, index.c 5039–5095, ir_get_field_num 3952–3959. Simplifications: of a reader given to mr_open there are its fields, and in `Verif.Model.MultiTermEnum` and `Verif.Model.Norms` its terms and norms as a segment reader, so that each index has one segment; readers that are themselves readers of several segments are not modelled.
* `Verif/Model/MultiTerm.lean`: Model of searching with a MultiTermQuery, which prefix, wildcard and fuzzy queries become: c/src/q_multi_term.c 49–473 (TermDocEnumWrapper, MultiTermScorer, multi_tw_scorer, multi_tw_explain). Simplifications: an enumerator of postings is the list of the postings it has not delivered (that enumerators of segments and of several segments are that is C22 and C24); scores are of a type `S` with the arithmetic `Arith S`. The wrappers of `tdew_a` are not used once they are in the queue, so the queue holds them by value. `left` is no part of the code, see Model/Scorer.lean. Of an explanation only the value is modelled, and the bounds of the text of document frequencies.
* `Verif/Model/MultiTermEnum.lean`: The enumerator of the terms of several segments, index.c 2379–2609, and the document frequency over several segments, index.c 4831–4843. Simplifications: the sub readers are segment readers (`Sub` is what their enumerators read); a wrapper is in the queue as its term and its index, as it is never changed while it is in it (tew->term points at the enumerator's buffer, which only changes in next and skip_to); frequencies do not overflow.
* `Verif/Model/Names.lean`: File names of the index: generations in base 36 (c/src/index.c 59–167, 724–801). Names are byte strings without the terminating NUL.
* `Verif/Model/Norm.lean`: The byte that keeps a norm, c/src/helper.c 14–63 and c/src/similarity.c 107–147: float2byte, byte2float and the table of decoded norms. A `float` is its 32 bits, a number below 2^32, as float2int and int2float give it.
* `Verif/Model/Norms.lean`: Norms: reading them, setting them and committing them. c/src/index.c 4194–4238 (Norm, norm_create, norm_rewrite), 4287–4328 (sr_get_norms_into_i, sr_get_norms_i, sr_set_norm_i), 4415–4437 (sr_commit_i: the norms), 4502–4517 (sr_get_norms, sr_get_norms_into), 4593–4608 (sr_open_norms), 4771–4820 (mr_get_norms, mr_get_norms_into), 4879–4889 (mr_set_norm_i), 4936–4944 (mr_commit_i), 3972–4022 (ir_set_norm_i, ir_set_norm, ir_get_norms_i, ir_get_norms, ir_get_norms_into), 4100–4133 (ir_commit_i); c/src/q_span.c 211, 300 (how span queries read norms). Simplifications. * Fields are numbers. That a field is not known gives norms of 0 (ir_get_norms_i) and is not here. * The hash of norms and the cache are functions of field numbers (C05). * A stream has the bytes of the file as it was when it was opened (C31). The bytes that are written are in the file when it is closed (C09, C10). * The commit of segment infos is that a reader opened afterwards sees them (C16, C17). The files that are queued to be deleted are deleted at the end. * The number of documents of the stored fields is that of the segment info. * Only what concerns norms is here; locks are in C32 and C51, deletions in C26. * A pointer to norms is a field and which of the arrays made for it, in the order in which they were made: only the last of them can be alive.
* `Verif/Model/PackSeg.lean`: Putting a new segment into a compound file (iw_create_compound_file, iw_commit_compound_file and their caller iw_flush_ram_segment, index.c 6197–6239, 6316–6329; iw_merge_segments 6261–6268 does the same) and opening the segment (sr_setup_i, sr_open_norms, index.c 4594–4683). The store is one of the operating system (a store in memory behaves the same: C90); the deleter's pending files are a list without repetitions (C06); a pending file that cannot be removed stays pending and is not modelled. What else sr_setup_i sets up is modelled elsewhere (C18, C20, C21, C93).
* `Verif/Model/Phrase.lean`: Model of the phrase scorers: `PhPos`, `PhraseScorer`, the exact and the sloppy phrase frequency, c/src/q_phrase.c:38-533, and of the enumerator of several terms at one phrase position, `MultipleTermDocPosEnum`, c/src/index.c:3444-3612. The enumerators behind the function pointers of a `TermDocEnum` are a state `ε` with a record `TdeOps ε` of functions. Two are given: `Tde`, a cursor over the documents of one term (what C22 and C24 prove the enumerators of a segment and of several segments to be), and `Mtdpe`. Simplifications. * Document numbers, positions and offsets are unbounded integers: the differences in `pp_cmp`, `pp_pos_cmp` and `icmp_risky` do not overflow. * `qsort` leaves the order of equal elements open. The sort of the phrase positions is a parameter `qs` of the functions, and the theorems hold for every function that permutes and orders. * The exact frequency is a natural number (the C float adds 1.0 each time: exact up to 2^24). The sloppy frequency is the list of the match lengths that are scored; the C code sums `sim_sloppy_freq(length) = 1/(length + 1)`, which is positive, so the sum is 0.0 iff the list is empty. * `PhPos` objects are referred to by their index in `phrase_pos`; the queue of the sloppy scorer holds indices. A closed enumerator (`tpe = NULL`) is `none`, using it is `.ub` (`assert`, or a NULL pointer). * `left` is not in the C code: a bound used only as fuel of a loop, whose exhaustion is `.ub`.
* `Verif/Model/Postings.lean`: The postings of a segment: what dw_flush writes to .frq and .prx (index.c 5281–5321, 5414–5447) and the enumerators of documents and positions over them (index.c 2881–3221). Streams carry bytes (C08, C09); an input stream is a file and a position in it. Deletions are a bit vector (C01).
* `Verif/Model/PriorityQueue.lean`: Model of the bounded priority queue, c/src/priorityqueue.c. Simplifications: `heap` lists the elements in slots 1..size of the C array (slot `i` is `heap[i-1]` here, the C field `size` is `heap.length`); slots above `size` are never meaningful in C (NULL after a pop), so reading one is `.ub`. `memCapa` is the number of allocated slots; writing a slot outside it is `.ub`. The C `int` fields do not overflow.
* `Verif/Model/QClean.lean`: Cleaning the text of a query before parsing it: qp_clean_str (c/src/q_parser.y 1195–1307; the same code stands in the generated c/src/q_parser.c), which allocates twice the length of the text and one byte more, and writes into it with no check of its own. A text is a list of characters before the terminating zero; writing behind the allocation is undefined behaviour. What has been written is kept with the last character first.
* `Verif/Model/QLex.lean`: The lexer of the query parser: get_word and yylex (c/src/q_parser.y 289–442; the same code stands in the generated c/src/q_parser.c). A text is the list of the characters before the terminating zero. The lexer has two buffers of MAX_WORD_SIZE bytes for words, taken in turn, and for longer words a buffer allocated with the length of the whole text and one byte more, which the next call of get_word frees. A word is handed out with the kind of its buffer and the number of the call that wrote it: a word in one of the two buffers is intact until the second next call, a word in the allocated buffer until the next (see `Word.read` in QParse). Writing behind a buffer is undefined behaviour. `strchr` finds the terminating zero too, so words end at the end of the text.
* `Verif/Model/QParse.lean`: The query parser: the tables and the loop of yyparse (c/src/q_parser.c 472–713, 1340–2020, generated by Bison), the actions of the grammar (c/src/q_parser.y 225–286, compiled into q_parser.c), the functions they call (q_parser.y 158–205, 444–468, 500–709, 741–1081) and qp_parse (1309–1365). The field stack is kept, with the default fields at its bottom, and what an exception leaves on it. Simplifications. Analysis of a word in a field is a function to the tokens with their position increments (get_cached_ts, 480–498, for tokenized fields and others). lower_str (716–739) maps characters one by one; the byte it writes behind the terminating zero is checked. Boosts and similarities stay texts; of `sscanf(…, "%d")` only the value and whether there is one is modelled (a slop left uninitialised is undefined behaviour). The order of the bounds of a range is a parameter (q_range.c 121, 158–178). The limit of clauses of a boolean query over several fields is left out: it would need more than max_clauses (512) fields. Memory is not modelled but for the buffers of words: a word may be read from a fixed buffer until the second next call of get_word and from the allocated one until the next; reading it later (overwritten or freed) is undefined behaviour. The mutex is left out. A failed assert counts as a crash. Stacks grow up to YYMAXDEPTH as in q_parser.c.
* `Verif/Model/QueryEq.lean`: Comparing and hashing queries: q_hash and q_eq (search.c 422–433), hash and eq of every kind of query (q_term.c, q_multi_term.c, q_boolean.c, q_phrase.c, q_const_score.c, q_filtered_query.c, q_match_all.c, q_range.c, q_wildcard.c, q_fuzzy.c, q_prefix.c, q_span.c) and of filters (filter.c 45–81, 122–130; q_range.c 278–286). A query is a tree; every node has the address of its struct, so that `self == o` can be told. Symbols are interned (symbol.c), so that comparing their addresses compares their bytes. Floats are their bits. `int`s are integers, converted to `unsigned long` as C does (sign-extended). `q1->eq(q1, q2)` in the span queries does not look at the type of `q2`. Casting to another struct is modelled by what the layouts of search.h 498–608 give: SpanTermQuery and SpanPrefixQuery both continue with a `char *`; SpanOrQuery and SpanNearQuery both with `clauses`, `c_cnt` and `c_capa`. Every other cast that reads past the fields of SpanQuery is undefined behaviour here, also where some layouts would give a result. `hash` and `eq` of a FilteredQuery are NULL: fq_new, q_filtered_query.c 199–212, does not set them. Not modelled: filters and queries defined in Ruby (r_search.c 2605–2650), which wrap Ruby's own hash and eql?.
* `Verif/Model/QueryHeap.lean`: Queries as objects that searches rewrite: c/src/q_boolean.c 1339–1407 (bq_rewrite), 1241–1263 (bw_new); c/src/search.c 1217–1229 (isea_rewrite), 355–366 (q_weight). Boolean queries hold references to the queries of their clauses. Rewriting gives back the query itself, one of the queries below it, or a new one, and writes to the boosts of what it gives back, to `original_boost`, and to the clauses of queries that only prohibit. Simplifications. * Memory is a list of objects, a reference is a position in it; reference counts and freeing are not modelled. * Leaves that rewrite to something else (prefix, wildcard, fuzzy, range) are `expands`: they make a new leaf, given by a function of the leaf and its boost. What they expand to is in Expand.lean. * The copy that bq_rewrite makes (1380–1395) is made after all clauses are rewritten instead of before the first that changes is put in. * `max_clause_cnt`, which bq_add_query_nr checks (1403), is not modelled. * The boost of a query is read once, when its weight is made; sum_of_squared_weights reads it again. * Recursion is bounded by an amount of fuel; the theorems hold for every sufficient amount.
* `Verif/Model/QueryText.lean`: The text of queries: dbl_to_s, vstrfmt and estrcat (c/src/global.c 101–110, 138–167, 184–245) and the functions `to_s` of queries and filters (q_term.c 265–285, q_multi_term.c 505–553, q_phrase.c 965–1056, q_prefix.c 14–34, q_wildcard.c 14–32, q_fuzzy.c 152–175, q_range.c 21–70, 210–216, 310–316, 454–457, q_match_all.c 114–122, q_boolean.c 1418–1481, q_const_score.c 111–125, q_filtered_query.c 167–183, q_span.c 1534–1542, 1596–1622, 1722–1729, 1811–1836, 1995–2020, 2185–2195, 2307–2328, filter.c 40–43, 96–103) and td_to_s (search.c 209–220). A buffer is what is written to it so far and the size it is allocated with; writing behind it is undefined behaviour, and so is reading a text without a zero at its end or memory that `realloc` has freed. Simplifications. Characters are those of one byte; the terminating zero is not among them. What `printf` writes for floating point numbers is a parameter (`Nums`); `int` arguments for `%d`, which vstrfmt reads as `long`, are taken as the same number. Sizes are natural numbers: an overflow of `int` is not modelled. `qsort` is a parameter. The words of a query for any of several words are given in the order in which pq_pop gives them.
* `Verif/Model/RamDir.lean`: Model of the in-memory directory, c/src/ram_store.c: a hash table from names to reference-counted files, and streams that hold references. The files live in a heap addressed by position, `none` once freed; using a freed file is undefined. The bytes of a file are one list: that its 1024-byte buffers and the buffering of the streams amount to that is C09. A stream that has been closed is freed, using it is undefined. Names are compared by their bytes; the keys of the table are taken to stay what they were when stored (ram_touch stores the caller's pointer, ram_store.c 43: see DESIGN.md).
* `Verif/Model/Readers.lean`: Model of the deletions of an index reader, c/src/index.c: SegmentReader 4241–4690 and MultiReader 4690–5020. Simplifications: the reader holds the write lock and is up to date (ir_acquire_write_lock, 3882–3919, is in WriterLock.lean and C32); one thread; norms, fields and postings are not in this file. A document number is an `Int`, counts do not overflow. The `.del` files of a segment are a map from generation to bytes.
* `Verif/Model/RefCount.lean`: Who owns queries: reference counts of queries, clauses, filters and weights. c/include/global.h 62–63 (REF, DEREF); c/src/search.c 252–274 (w_destroy, w_create), 314–319 (q_rewrite), 335–366 (q_destroy_i, q_deref, q_weight), 443–459 (q_create), 1217–1229 (isea_rewrite); c/src/q_boolean.c 1168–1177 (bw_destroy), 1241–1263 (bw_new), 1294–1299 (bc_deref), 1312–1318 (bc_new), 1339–1407 (bq_rewrite), 1484–1513 (bq_destroy, bq_get_similarity), 1545–1624 (bq_new, bq_new_max, bq_add_clause_nr, bq_add_clause, bq_add_query_nr, bq_add_query); c/src/q_span.c 1743–1759 (spanfq_rewrite, spanfq_destroy_i), 1776–1803 (spanfq_new_nr, spanfq_new), 1874–1902 (spanoq_rewrite, spanoq_destroy_i), 1938–1987 (spanoq_new, spanoq_add_clause), 2059–2085, 2125–2177 (the same for near), 2208–2236 (spanxq_rewrite, spanxq_destroy), 2331–2355 (spanprq_rewrite); c/src/q_filtered_query.c 134–190 (fqw_destroy, fqw_new, fq_destroy), 192–213 (fq_new_weight, fq_new); c/src/filter.c 13–22 (filt_destroy_i, filt_deref), 133–157 (qfilt_destroy_i, qfilt_new_nr, qfilt_new); c/src/q_const_score.c 128–131 (csq_destroy), 144–162 (csq_new_nr, csq_new); c/src/q_range.c 499–509, 641–651 (rq_rewrite, trq_rewrite). Memory is a list of objects; addresses are positions in it and are not used again. An object with count 0 is freed: to read it or to write to it is undefined. Simplifications. * Of an object there is its kind, its count and which objects it owns: `kids` (the clauses of a boolean query, the query of a clause, the clauses of a span query, the query of a filtered query, of a query filter, the weights and the query of a weight) and `aux` (the similarity of a boolean query, the filter of a filtered or constant query). * Weights and similarities, which are freed by their only owner, are objects with count 1. * `rank` is in no struct: it says how deep queries may be nested, is chosen when a query is made and is read by no function. A query can be put into one of higher rank only, so that no query contains itself. * An object is marked as freed before what it owns is given up, not after. What it owns is given up in the order of `kids` and then `aux`. * A span query takes the rewritten clause before it gives up the old one, not after. * Patterns (prefix, wildcard, fuzzy, span prefix) rewrite to a new query that owns nothing; what it asks for is in Expand.lean. Ranges rewrite to a new constant query with a new filter. * A weight is made after the weights of its clauses; w_create has its reference to the query from before. * The span queries (first, or, near, not) are one kind: all rewrite their clauses in place. The check of fields is not here (C69). * Only searchers with one reader. Scorers own no queries and are not here.
* `Verif/Model/Scan.lean`: The standard scanners that ragel generates (c/src/scanner.c 537–900, c/src/scanner_utf8.c 4046–4420, which are alike but for their tables and the numbers of their actions): the interpreter of the tables, and std_next of c/src/analysis.c 562–594. A text is its bytes before the terminating zero, and a pointer into it an offset; reading beyond the zero, using a null `ts` or `te` and having too little on the stack are undefined. `char` is signed (as with c/Makefile) or not (as with c/Rakefile 170, -funsigned-char). `pe` and `eof` are null, so `p` is neither. That `p` points one before the text for a moment is let pass. What is printed is not modelled.
* `Verif/Model/ScanAscii.lean`: The tables of the ASCII standard scanner, copied from c/src/scanner.c. The table of transitions at the end of the input (`_StdTok_eof_trans`) is left out: `eof` is a null pointer that `p` never is.
* `Verif/Model/ScanUtf8.lean`: The tables of the UTF-8 standard scanner, copied from c/src/scanner_utf8.c. The table of transitions at the end of the input (`_StdTok_eof_trans`) is left out: `eof` is a null pointer that `p` never is.
* `Verif/Model/Scorer.lean`: Model of the scorers that enumerate the documents matching a query: c/src/q_boolean.c (all scorers), the term scorer of c/src/q_term.c, the match-all scorer of c/src/q_match_all.c. A C `Scorer` is an object with the function pointers `next`, `skip_to`, `score` and the field `doc` (c/include/search.h:623-632). Here it is a state `σ` with a record `Ops σ S` of functions. Simplifications. * Document numbers are unbounded integers, scores an abstract type `S` with the arithmetic `Arith S` (float rounding is not modelled). * `score` also returns by how much it raises `num_matches` of the coordinator of the enclosing boolean scorer (the C code adds to the shared object). Clause scorers never do (0). * `left` is not in the C code: a state-computed bound used only as fuel of the loops, whose exhaustion is `.ub`; the theorems show it is never exhausted. * `destroy` and `explain` are not modelled; a destroyed scorer (SCORER_NULLIFY) is `none`.
* `Verif/Model/SeaTree.lean`: Searchers over searchers (MultiSearcher, c/src/search.c 1443–1826), which may be searchers over searchers again. Searchers of one index (IndexSearcher) are at the bottom; what they give is taken as it is: `call a d` is what they answer about document `d` (the document, the document loaded lazily, its term vector of a field, the explanation of a weight; which of them is `a`), `hits w` what search_each_w reports for a weight with its filters, `freq t` how many documents have a term. A reader's max_doc does not change while it is open. What msea_search_w does is in C33, C34, C52 and C91.
* `Verif/Model/Search.lean`: Model of the hit collection in c/src/search.c: `isea_search_w`, `isea_search_unscored_w`, `msea_search_w`, `msea_search_unscored_w` (unsorted searches). Simplifications: scores are an abstract type `S` with the C `<` given as a boolean function (non-NaN floats, so `a == b` is "neither is less"). The scorer is the list of (document, score) pairs its `next` yields. A post filter is a function giving `none` when the C `filter_func` returns 0 and otherwise the score after `if (filter_factor < 1.0) score *= filter_factor`. Field loading and memory release are not modelled. `int` is 32 bits wide.
* `Verif/Model/SegmentInfos.lean`: Segment infos, the segments file and how it is found (c/src/index.c 559–1193). Streams carry bytes (C08, C09); a file is written one byte after the other. Errors of the operating system while writing are not modelled (a process stopped at any point is). Sleeping is not modelled.
* `Verif/Model/SharedFile.lean`: Threads reading one file, each through a stream of its own (a copy made by is_clone, store.c 299–305, as enumerations, term dictionaries, stored fields and lazy documents make them, index.c 1482, 1540, 2313, 3011, 3115, 3216). A step is what one thread does until its next access to what threads share: a file descriptor's offset (streams of a store on disk, fs_store.c 287–309), or the position of the one stream all streams of a compound file read from (compound_io.c 127–141). Positions of streams over files in memory are their own (ram_store.c 294–344). Calls of the operating system are atomic, the file is not changed. The check of the offset after a short read (fs_store.c 296) is taken in one step with the read. Commands are reading a byte and seeking; all typed reads are made of bytes (C08). The buffer of the stream under a compound file is not modelled (it holds bytes of the file all the same), nor are the reference counts of streams, nor what a thread does after an IO error.
* `Verif/Model/Snapshot.lean`: What writers and readers do to the files of an index, call by call of the store (c/src/index.c 1129–1167, 4225–4238, 4397–4436, 4594–4666, 5335–5398, 5878–5882, 6071–6118, 6167–6173, 6540–6709; c/src/compound_io.c 351). A step is one call of the store with the change of the segment infos that determines the name used. The processes are those that make commits under the write lock (one at a time, C51), and any number of readers. The steps may come in any order a program could make and in many it could not: which files a writer opens is restricted to the names the code forms there, and * data files and compound files are only opened for a segment made since the last commit by the same session (every sis_write is preceded by the flush, the merge or the copy being complete: 6246–6267, 6316–6327, 6365–6392, 6797–6806); * streams are closed when a commit is complete; * counters and generations do not reach the end of their types. What a commit holds is taken to be what a reader of the segments file gets (C16, C17). The bytes written are arbitrary. Removal of a name may happen to any name at any time.
* `Verif/Model/Sort.lean`: Model of sorted searches: c/src/sort.c, c/src/field_index.c and the sorted branches of `isea_search_w` and `msea_search_w` in c/src/search.c. Simplifications: floats (scores and float values) are an abstract type `S` with the C `<`; `sscanf` and `strcoll` are parameters, and a conversion that does not fit its type is not modelled. A reader is, for each field it knows, the terms in the order of the term enumerator, each with the live documents its enumerator gives (C20-C24), the field index cache and whether `field_index_mutex` is held. A thread that locks a mutex it already holds (pthread default type) is undefined. The queue of a sorted search holds each hit with the values its comparators read: the C code reads them from the field index arrays at every comparison, and the arrays do not change during a search; reading outside an array is undefined even when no comparison would have happened. The filters, post filters and `int` arithmetic are as in Model/Search. The memory of hits and comparables, `sort_field_to_s`, `sort_to_s` and the growth of the array of a `Sort` are not modelled.
* `Verif/Model/Span.lean`: Model of the span queries and of the enumerators of their spans, c/src/q_span.c:314-1378 (SpanTermEnum, SpanMultiTermEnum, SpanFirstEnum, SpanOrEnum, SpanNearEnum, SpanNotEnum) and the `get_spans` functions of the queries (1572-2283). A C `SpanEnum` is an object with the function pointers `next`, `skip_to`, `doc`, `start` and `end` (c/include/search.h:437-449). Here it is a state `σ` with a record `Ops σ` of functions. Simplifications. * Document numbers, positions and the slop are unbounded integers; INT_MAX is `Phrase.intMax`. * `doc`, `start` and `end` are read together (`cur`): each of them fails exactly when the others do, namely when the queue of an `or` is empty and `pq_top` is NULL (c/src/q_span.c:845-863). * The queue of an `or` holds pointers to enumerators, compared by what `doc`, `start` and `end` return at that time. Here it holds each enumerator with the span read from it after its last move. * The positions of a term come from `Phrase.Tde`, what C22 and C24 prove the enumerators of a segment and of several segments to be, or, when highlighting, from the enumerator over a term vector, c/src/q_span.c:68-149 (`TvTde`). All clauses are in one field (`spanoq_add_clause_nr`, 1960-1981, raises otherwise), which the index has. * `left` is not in the C code: a bound used only as fuel of a loop, whose exhaustion is `.ub`. * `to_s` and `destroy` are not modelled.
* `Verif/Model/SpanMatch.lean`: Highlighting with span queries, c/src/q_span.c:37-61 and 151-182 (`mv_to_term_mv`, `spanq_get_matchv_i`), and the `get_terms` functions of the span queries (1555-1560, 1644-1653, 1736-1740, 1848-1860, 2032-2044, 2202-2205). Simplifications. * A term vector is the positions of each term, if it is in the vector (`tv_get_tv_term`, c/src/term_vectors.c). The term vector has positions. * A hash set of terms is the list of its members in the order they were added, the order in which C06 proves a set is gone through. * `qsort` in `matchv_compact` is any function `sort`. * The one-document reader that stands in for an index is where the span enumerators get their positions from (`Span.Src.vector`).
* `Verif/Model/SpanScorer.lean`: Model of the scorer of span queries, c/src/q_span.c:185-312 (SpanScorer). Simplifications. * The float `freq` is the list of the lengths whose `sim_sloppy_freq` has been added to it, in that order. `freq != 0.0` is that the list is not empty: `simdef_sloppy_freq` (c/src/similarity.c) is 1 / (length + 1), above zero. * `tfw` is `sim_tf(freq) * value` as a function of that list, `norm` the decoded norm of a document. * The field exists (otherwise `spansc_new` returns NULL). * `left` is not in the C code: the number of moves still possible, used only as fuel of the loops outside. * `explain` and `destroy` are not modelled.
* `Verif/Model/Stream.lean`: Model of the buffered streams (c/src/store.c) over in-memory files made of 1024-byte buffers (c/src/ram_store.c) and over files of the operating system (c/src/fs_store.c). Simplifications: allocation never fails; `int` and `off_t` do not overflow; a file of the operating system is its byte content, and writing and reading it never fail for reasons other than its length; reference counts are not represented here (see `Verif.Model.RamDir`).
* `Verif/Model/StreamLife.lean`: The life of input streams: is_new, is_close, is_clone (c/src/store.c 188–195, 290–305), the close_i of streams over files on disk, in memory and in a compound file (c/src/fs_store.c 312–318, ram_store.c 335–340, compound_io.c 117–120), cmpd_create_input and cmpd_close_i (compound_io.c 150–163, 85–98), as a reader, its lazily loaded documents and its enumerators use them (c/src/index.c 1475–1492, 1533–1551, 4439–4455). Reading is reading from the file: what may still be in a stream's buffer is not modelled. A freed stream or counter is not used again by the allocator here, so that using it is seen. One thread.
* `Verif/Model/StreamRun.lean`: Clients of the streams: histories of files, and typed values.
* `Verif/Model/TermDict.lean`: The term dictionary of a segment: the writer of .tix, .tis and .tfx (index.c 2706–2869) and the enumerator and lookups over them (index.c 2045–2373, 2618–2704). Streams carry bytes (C08, C09); an input stream is the bytes of the file and those not yet read. Terms are lists of bytes other than NUL. The table of index terms, which the code reads once and keeps, is read at each use here.
* `Verif/Model/TokenStreams.lean`: Token streams and analyzers as objects: c/src/analysis.c 103–134 (ts_deref, ts_reset, ts_clone_size, ts_new_i), 140–150 (cts_clone_i, cts_new), 173–190 (mb_ts_reset, mb_ts_clone_i, mb_ts_new), 200–238 (a_deref, a_standard_destroy_i, a_standard_get_ts, analyzer_new), 1079–1117 (filter_clone_size, filter_clone_i, filter_reset, filter_destroy_i, tf_new_i), 1123–1197 (sf_destroy_i, sf_clone_i, sf_next, stop_filter_new_with_words), 1205–1258 (mf_destroy_i, mf_clone_i, mf_next, mf_reset, mapping_filter_new, mapping_filter_add), 1265–1338 (hf_clone_i, hf_next, hyphen_filter_new), 1343–1395 (lower case filters), 1403–1480 (stemf_destroy_i, stemf_next, stemf_clone_i, stem_filter_new), 1647–1690 (pfa_destroy_i, pfa_get_ts, pfa_sub_a_destroy_i, pfa_add_field, per_field_analyzer_new); c/src/hash.c, c/src/multimapper.c (the counts of a hash and of a mapper, h_destroy, mulmap_destroy); c/include/global.h 62 (REF). Memory is a list of objects; addresses are positions in it and are not used again. An object with count 0 is freed: to read it or to write to it is undefined. Streams, tables of stop words, mappers and analyzers are objects; a filter holds the address of the stream below it, and a hyphen filter also that of the token it is taking apart, which is in the tokenizer. Simplifications. * A tokenizer gives one after the other the tokens of its text, which are a function of the text (C63, C65, C68, C89: `z`); `pos` is how many it has given. To ask one that was never given a text is undefined. * `chain` is in no struct: it is the address of the tokenizer at the bottom, and is read by no function but to make another object with the same. * An object is marked as freed before what it owns is given up, not after. A copy of a filter is allocated after the copy of the stream below it, not before. * The token of a tokenizer is in the object of the tokenizer. `next` gives the address of that object, or NULL. * The table of a per-field analyzer is a list in its object (C05), with the analyzer of a field at most once. * The stemmer is its function, or NULL for an algorithm or encoding that the stemmer library does not know. The names kept for copies are not here: a copy makes a stemmer of the same names. * `n` bounds how many filters are above each other and how many stop words follow each other: enough of it is shown to exist for every run.
* `Verif/Model/Walk.lean`: Sequences of calls on a scorer, and the unscored scan of a multi-searcher.
* `Verif/Model/Writer.lean`: The index writer: iw_add_doc, iw_flush_ram_segment, iw_commit_i, iw_delete_term, iw_delete_terms, iw_maybe_merge_segments, iw_merge_segments, iw_optimize_i, iw_add_readers, iw_doc_count, iw_close and iw_open, c/src/index.c 6183–6811. A segment is its documents, each deleted or not (the bytes of its files: C18–C22, C26, C27), and what SegmentInfo says of it. A document is anything that has terms in fields (`Docs`). Merging keeps the documents that are not deleted, in order: that is C27. `sis_write` replaces the list of segments on disk as a whole (C16, C17). The loops may not end: they have fuel, `none` is "still running". `target_merge_docs *= merge_factor` is undefined if it overflows. Sums of document counts do not overflow. Not modelled: the lock (C51), files and the deleter (C30), exceptions other than a segment's files not being there and those of fw_open, the store of a segment being another one (sis_read and sis_new_segment always give the writer's).
* `Verif/Model/WriterLock.lean`: Model of how writers and readers use the write lock and the version of the index: iw_open 6484–6525, iw_close 6462–6482, ir_acquire_write_lock 3882–3918, ir_set_norm_i / ir_undelete_all / ir_delete_doc 3972–4040, ir_commit_i 4100–4133, index_is_locked 6175–6181, the version in sis_write 1141 and sis_read_current_version 1188, all in index.c. Each call is atomic, calls of different clients interleave. Clients are numbered, a number is used for one writer or one reader. The build is the one of the Ruby binding, without threads (ruby/ext/threading.h): in the threaded build a reader whose change was refused stays locked in its own mutex, 3974 and 3894. What the commits contain is not modelled, only their version.

## Where the code and the property disagree

Each is a theorem about the model with concrete inputs (the theorems of the claim that state it are listed in MANIFEST.json), next to a `_partial` theorem for the rest.

* **C02 Bit vector boolean algebra is pointwise**: Fresh-result and/or/xor/not and in-place not are pointwise for all inputs. In-place and/or/xor is false in one case (witness proved), and ones-tail results misbehave under later mutation / count (witnesses proved).
* **C04 Bit vector scan enumerates exactly the set bits**: True unless the last allocated bit is set: then the code reads one word past the allocation (witness proved).
* **C09 Buffered output and input streams refine a byte array**: Block reads past the end of a RAM file return stale memory instead of raising EOF (proved by witness); everything else refines positional access.
* **C10 RAM directory behaves as a map of named files**: Refinement of the whole directory interface (streams, names, reference counts, no use after free). Not full: the code does not truncate a file opened again for writing, so 'content last written' is false there (witness c10_rewrite_keeps_old_tail).
* **C100 A segment put into a compound file reads the same**: Proved for all new segments, contents and pending files, while the compound file is shorter than 2^63 bytes. False after a failure: the separate files are queued for removal before the compound file is written, so an exception of the store while it is written leaves a listed segment whose files the next commit removes, and no reader opens it any more (c100_failure_loses_segment, for every segment; with the locks of the C library, left taken by the exception, the writer blocks instead; the Ruby binding has none). A longer file of the compound file's name is not cut (c100_stale_file_read), which opening a writer prevents by removing such files (C30).
* **C101 Threads reading the same file through their own streams read what is in it**: Proved for every schedule for files in memory and for streams that have a file descriptor of their own: each thread sees what it would see alone and finishes. For clones and for members of a compound file it is false: clones share the descriptor's offset and members share one stream, and seeking and reading are two steps, so a thread silently gets bytes from another position (c101_clone_race, stale buffer bytes included) or of another file (c101_compound_race), or an IO error (c101_compound_race_error). For these it is proved when whole commands take turns. Reference counts of streams are not modelled.
* **C102 A searcher over several searchers numbers all documents through, and gives what it reported when asked for it**: Proved for all trees: answers by number, totals, what a search reports, scans. Refusing numbers no document has is false: for every negative number, and for every number if there are no searchers, the code calls an element before the array of searchers (c102_negative_undefined, c102_no_searchers_undefined; the Ruby binding passes the number on unchecked); past the end an index is asked past its own end, whose answer is not part of this claim. A function called for each hit is given the number in the whole but the searcher of the index, so it cannot use one with the other (c102_function_given_other_searcher). Page searches over nested searchers are not in this model (C34, C52 for one level).
* **C103 What a filter computed for a reader is kept while both live, freed once, and never given to another**: Proved for all histories of one thread: answers, frees and what is left are those of the specification, through the tables being changed while they are freed. False for threads: the tables have no lock, and a second thread that also found nothing kept frees the answer of the first (c103_threads_free_answer). Reference counts of filters and readers and the hash table itself (C05) are not part of this model.
* **C104 A copy of an input stream stays usable until it is closed itself**: Holds for files of their own in any order, and for members of a compound file if its stream is closed last. Fails otherwise: members read through the compound file's stream without counting as its users (compound_io.c 155), so a document loaded lazily from a packed segment uses freed memory once the reader is closed (c104_packed_lazy).
* **C11 At most one holder of a named lock**: Mutual exclusion proved for every interleaving of clients that release/close only what they hold; false for the library's own use of locks (witnesses).
* **C12 Compound file reproduces its member files**: exact lengths and bytes for every member, any sequence of reads, seeks and clones, EOF past the end, other files untouched; fails when a longer file of the compound's name exists (witness)
* **C13 Norm byte decode/encode is stable**: Proved for all bytes and all float bit patterns, against their IEEE value. Missing: order below the value of byte 1, where the code is not monotone (c13_monotone_wrong: the numbers from bits 384*2^21 on get byte 0, smaller positive ones get byte 1).
* **C17 Commit is atomic under crashes**: Atomic at every crash point for generation >= 1 with no left-over partial segments file; witnesses show it fails otherwise.
* **C18 Stored fields round-trip**: Proved for all histories of field descriptions and documents, for reading whole and lazily, with any later table of fields. Missing: compressed data of 16348 bytes or more before or after compression (the loops around the compression library do not end, c18_compress_ub and c18_decompress_ub), and bytes of a compressed lazy field that start on a separator between two values (the separator is dropped, c18_lazy_wrong). The compression library is a parameter.
* **C19 Term vectors round-trip**: Proved for all histories and all fields of all documents. Missing: a field that stores offsets but has no terms makes the following vectors of the same document unreadable when all are read together (c19_all_wrong); a term of 255 bytes overflows the reader's buffer (c19_long_term_ub).
* **C22 Posting skip_to equals linear scan**: Any history of seek, seek_te, next, skip_to, read and positions equals a linear scan, for skip intervals of at least 3. Witnesses: skip intervals 1 and 2 miscount after skip_to; a positions enumerator given a term enumerator reads the positions of another term.
* **C24 Multi-segment document enumeration is a concatenation**: All histories of seek, seek_te, next, skip_to, read and position over any list of written segments give the merged, shifted, live documents. Missing: seeking an absent term while a segment is current, reading 0 documents, seeking again with an enumerator of positions, and skip intervals below 3; on each the code is wrong (witnesses).
* **C27 Segment merge preserves live content**: The merged files are shown to be exactly those written from the undeleted documents alone (postings, dictionary, stored fields, term vectors, norms), for any segments, deletions and number of segments, within the size limits of the formats. Partial: sm_cache_term (index.c 5976-5984) can overwrite the last index term too early, so with terms of about 254 bytes a term is lost from the merged dictionary (c27_buffer_wrong); c27_buffer_partial gives the condition under which it cannot, which c27_buffer_usual shows for terms up to 252 bytes. The terms theorem takes terms as values, the buffer theorem shows that this is what the writer then sees.
* **C28 Index writer history semantics**: Proved for every history of add, delete, commit, optimize, settings and reopening with merge_factor at least 2, max_buffered_docs at least 1 and not raised while the writer is open, while documents times merge_factor is an int. Disproved: max_buffered_docs below 1 or raised while open writes norms out of bounds; an exception while a segment's files are opened leaves a segment without files, and after the next commit no reader opens; iw_doc_count counts deleted documents.
* **C29 Optimize terminates with one segment**: Proved for every index and every merge_factor of at least 2. Disproved: the setting is not checked; with merge_factor 1 optimize and commit never end, with 0 or less optimize looks outside the segment list, and merge_factor squared may overflow an int.
* **C30 Unused-file deleter is safe and complete**: Exact (keeps all referenced, removes all others an index makes) whenever the commit read is the newest segments file; after a crash it is not, and the deleter removes the only good segments file (witness).
* **C31 Readers have snapshot isolation**: For every history of writer sessions (new segments, merges, deletions, undeletions, norms, commits, removals, crashes, recreated indexes) and every interleaving of the opening, a file of the taken commit is either not found or has the content it had at the commit, and the open stream keeps giving exactly those bytes from the RAM directory. Files are as the store sees them: what is made of the bytes is in C18-C25. Missing: a reader being opened by another process while documents are undeleted or the index is created anew can mix two commits (both witnessed, because names of deletion files and segments are reused). Data files are taken to be written only between the making of a segment and its commit; file descriptors of the OS are assumed to keep unlinked files.
* **C32 Stale readers cannot modify the index**: No commit overwrites a newer one in undisturbed histories; false after a refused change is retried (witness).
* **C35 Unscored scan returns the matches in order**: Exact for queries without conjunctions (any nesting) and for the multi-searcher given exact sub-searchers; for a conjunction the scan can report a non-matching document (witness).
* **C36 Boolean query matches by boolean logic**: Exact for all queries whose conjunctions are not below another conjunction, a MUST_NOT or an optional part; the code is wrong otherwise (witness).
* **C37 Scorer skip_to is consistent with next**: All interleavings for queries without conjunctions; witness that a conjunction's jump is wrong.
* **C39 Exact phrase matches exactly the phrase**: Proved for all phrases (any number of terms per position), all indexes, every order qsort may give equal elements, and every sequence of next and skip_to up to the first unsuccessful one: the documents are exactly those where the phrase occurs and, when no position is twice in a document, the frequency is the number of places; also as leaves of boolean queries. False as stated: with the same position twice in a document the frequency depends on qsort's order of equal elements (c39_violated_same_place). Calling skip_to on an exhausted phrase scorer, or next after a failed first skip_to, is undefined (c39_violated_after_end).
* **C40 Sloppy phrase requires the repeated terms**: Disagreement: "a a"~1 matches a document with a single a (c40_violated_single: sphsc_check_repeats is given i - 1). Proved for every index, phrase with repeated terms, slop and way of using the scorer: k phrase positions with different offsets stand on at least ceil(k/2) different words of every document found, so a term three times in the phrase is there at least twice (c40_three_partial), and the phrase is within the slop. Exact phrases need all k (c40_exact). Missing: k words for sloppy phrases, which is false.
* **C42 Prefix, wildcard and range expansion is exact**: Prefix, fuzzy and range expansion are exact; a wildcard whose literal prefix has 255 bytes or more overflows a buffer (c42_long_prefix).
* **C43 Typed range filter selects only numbers in range**: Exact when every scanned term begins with a number; otherwise stale or uninitialised values decide (witnesses).
* **C45 Constant-score queries are repeatable**: The code disagrees: the scorer goes through the cached bit vector from where the last scorer left it, so every search of the same reader after the first returns nothing (C45_again_nothing, for all filters and sequences; C45_twice). Proved: the first search of each reader returns the filter's documents (C45_first_partial), skip_to is repeatable (C45_skip_to). With max_doc a multiple of 32 from 128 on and the last document matching, the scan reads beyond the bit vector (C45_last_word).
* **C46 Highlighting preserves the text**: Proved for highlighting a whole stored field that is not compressed, with forward offsets within the text. The code disagrees for compressed fields: the buffer is allocated for the compressed length and overflows (C46_compressed); an empty text raises (C46_empty); overlapping tokens raise (C46_overlap). Excerpts (num_excerpts given) and the choice of matches are not modelled.
* **C47 Match vector compaction preserves coverage**: Proved for every non-empty list of ranges and every sorting of it, for both compactions: in order, disjoint, same positions; with breaks, also the scores. The code disagrees for no ranges: it reports one range, in memory never written (C47_compact_none). matchv_compact counts the first range twice and drops the score of a range that extends another (C47_compact_scores).
* **C48 Field length limit**: The limit is exceeded by one term, and by one more for each further value (the test comes after the posting is added); untokenized fields have no limit (witnesses). Proved: exactly which tokens are kept, at most the limit plus one per value, and all if there are no more than the limit.
* **C49 Terms stay within buffer bounds**: All texts: analyzers of the whitespace, letter and non-tokenizers with any filters (under stated laws of the locale, the stemmer and the mapper) give tokens of less than 255 bytes and never write outside of a buffer; so does every term of every document, unless an untokenized value has exactly 255 bytes. Disagreements: multi-byte lower case may write a zero at text[255] (c49_mb_lower_ub), so may the multi-byte standard tokenizer (c49_mb_standard_ub), and an untokenized value of 255 bytes overflows readers' buffers (c62_long_term_ub, c19_long_term_ub). The legacy tokenizer's own overflows are in C89.
* **C50 Adding readers keeps deletions deleted**: Proved if the other index has no deletions. Disproved: with deletions the deleted documents are there again, for every index.
* **C51 Writer lock is exclusive**: Holds up to the first refused attempt or index_is_locked call; false after (witnesses).
* **C52 Sorted search order**: Proved for one index (any sort, AUTO included, any history of sorted searches) and for several indexes. Missing, with witnesses: BYTE fields across indexes are compared by their place in their own index; AUTO on an unknown field dereferences NULL; after a sort by an unknown field raised, the field index mutex stays locked and the next sorted search hangs; AUTO looks at the first term only, so mixed fields read an unset variable; over several indexes the first one decides the type for all; a NaN breaks the order of other values.
* **C53 Multi-mapper replaces leftmost-longest matches**: Whatever mappings are given, of patterns up to 384 bytes, the compiled mapper replaces, reading left to right, the longest of the patterns that end first, with the replacement last given for it, copies everything else, and cuts the result to the buffer; the result is unique. Disagreements: it is the first pattern to end that is replaced, not the longest from the left (c53_not_longest); a pattern of 512 bytes overflows the array of states (c53_long_pattern_ub); mapping after an addition without compiling uses freed memory (c53_uncompiled_ub); mulmap_dynamic_map drops the result of erealloc and has no room for the final zero, so is undefined on every text without a match (c53_dynamic_ub).
* **C54 Growable array stores what was written**: Proved for every history of set, get, push, pop, unshift, shift, remove and delete, for every value of uninitialised memory: each call gives what the list of values says and touches only allocated cells, except: removing an element when all but one of the allocated cells are used reads one cell past the allocation (array.c 103: one element too many is moved), for every such array; pop and shift of an empty array run below it.
* **C55 Memory pool blocks never overlap**: Proved for every history of requests no larger than a chunk, writes to blocks and resets: blocks lie inside allocated chunks, are pairwise disjoint and keep their contents. A request larger than the chunk size gets a block that ends outside its chunk (mempool.c 34-46), in every state.
* **C56 Equal queries hash equally**: Proved for every pair of queries of any nesting: found equal implies the same hash, when no boost of a term or minimum similarity is -0.0 and no SpanOrQuery inside a span query meets a SpanNearQuery. Disagreements: 0.0 equals -0.0 but its bits are hashed (c56_neg_zero); span queries compare clauses without comparing their kinds, so SpanFirst(SpanOr) equals SpanFirst(SpanNear) with another hash (c56_or_near); FilteredQuery sets neither hash nor eq, so hashing or comparing one calls NULL (c56_filtered_ub).
* **C57 Concurrent term lookups are independent**: Proved: for every dictionary, lookups made one at a time by any number of threads search exactly the field given by c57_searched, so every disciplined history (all histories of one thread, all histories in one field) is answered right; once one lookup in a field has been made, every interleaving of lookups in it by any number of threads is answered right, each within four steps of its thread. The code violates the rest: the field of the reader is shared while enumerators are per thread, so a thread that returns to a field another thread asked for last searches its old field; a first lookup that is interrupted after its enumerator is made searches no field; and the table of index terms is tested outside the mutex and published before it is filled. Threads reading one file descriptor are modelled in C101; the array of enumerators is not modelled.
* **C58 Boolean score is coordination times the sum of clause scores**: Exact arithmetic, for the queries of C36.
* **C60 Rewriting keeps the boost of a query**: Prefix queries and wildcard-free patterns keep the boost; wildcard queries lose it (proved for every boost). Fuzzy and range rewriting likewise create queries of boost 1.
* **C61 Enumerating from a term starts at the first term not below it**: Holds unless the start term is empty and some segment has the empty term: then that segment is lost entirely (witness). The code tests curr_term[0] != 0 for 'found'.
* **C62 An added document is found by exactly its terms**: Proved end to end (adding, inverting, flushing, reading back postings with positions, term vectors and norms) for texts shorter than 255 bytes and positions that do not go back where offsets are stored. Witnesses: offsets of an earlier document shown if positions go back; a 255-byte untokenized value overflows the reader's term buffer. Deletions and merging are other properties.
* **C63 Tokenizers give exactly the runs of the text**: Exactly the maximal runs, for all texts and all locales, with offsets, positions and the cut to 254 bytes; multi-byte ones for texts that are properly encoded. Disagreements: after a badly encoded byte mb_next_char gives the next character twice (c63_invalid_doubled); a multi-byte token may be cut within a character (c63_cut_character). The standard tokenizer is another property.
* **C64 Token filters change exactly what they say**: Stop, lower-case and stem filters for all streams (the stemmer is any function); mapping for patterns up to 384 bytes; hyphens for tokens that are not empty; multi-byte lower case for results of less than 255 bytes. Disagreements: filter_reset does not reset a hyphen filter, so parts of an earlier text appear in the next (c64_hyphen_stale); a hyphen filter reads outside of an empty token (c64_hyphen_empty_ub).
* **C65 The standard tokenizer covers a text**: Disagreement: a URL whose match is left with nothing once the protocol is cut ("file:///c") is an empty token, which std_next takes for the end: all later words are lost (c65_violated_ends). The action that cuts the last character of a URL sets a variable that is never cleared when the match is given up, so other tokens lose their last character, and URLs with a path lose the last character of the path (c65_violated_cut, c65_violated_url). Proved: every scan of every text ends, is within the text and skips no letters or digits; tokens cover any text up to an empty match, and all of a text without colons; exact words for texts with plain separators.
* **C66 Queries that compare equal ask the same**: Proved for every pair of queries of any nesting: found equal implies asking the same when no clause of a span query meets one of another kind with the same layout and no typed range filter meets an untyped one; asking the same implies found equal, without NaNs and FilteredQueries. Disagreements: SpanOr of a term equals SpanOr of a prefix (c66_term_prefix), SpanOr equals SpanNear inside a span query (c66_or_near), a constant score query over a RangeFilter equals one over a TypedRangeFilter (c66_typed_range), limits on expansions are not compared and max_clause_cnt is compared with itself (c66_limits), other pairs of span clauses are read as the wrong struct (c66_cast_ub).
* **C67 Sloppy phrase matches exactly where the phrase fits the slop**: Proved for every index, every phrase of two or more positions without repeated terms that begins at offset 0, every slop, every walk of next and skip_to up to the first unsuccessful call, and every order qsort gives equal elements: exactly the documents where the phrase occurs within the slop; the shortest match scored is the narrowest window; also as clauses of boolean queries. Disagreements: with a first offset above 0 (phq_add_term_abs) a document with the exact phrase is missed (c67_violated_later_offset); with repeated terms an exact occurrence is missed and next and skip_to disagree (c67_violated_repeats); one position is a NULL dereference unless rewritten (c67_violated_one_position).
* **C68 The UTF-8 standard tokenizer keeps letters and reads only the text**: Disagreement: the tables compare plain char with unsigned keys. Where char is signed (c/Makefile, the Ruby extension) no byte above 127 ever matches, so letters that are not ASCII are separators (c68_violated_letters). Where it is unsigned (c/Rakefile) the states inside a character take any byte, so a text that ends inside a character is read past its end, and a space after a lone first byte becomes part of a word (c68_violated_overread, c68_violated_space). Proved: for signed char any text, and for ASCII texts either way, the tokens are those of the ASCII scanner, with all that C65 says. Not proved: properly encoded texts with char unsigned.
* **C69 A span query gives the spans it asks for**: Disagreement: a near with an 'or' after its first clause, or without clauses, reads the top of an empty queue or a clause that is not there (c69_near_or_crashes, c69_near_nothing_crashes); a term near itself matches each single occurrence (c69_near_itself); when clauses are longer than a position, a text that is near enough may be missed (c69_near_misses). Proved: for all other queries the spans are in order and what the query asks for; for near over terms nothing is missed. Not modelled: readers of several segments, highlighting.
* **C70 Searching with a span query finds the documents that have its spans**: Disagreement: after next the scorer has already moved its spans to the following document, so a jump to that document misses it, and a jump that lands after its target leaves freq at 0 and the scorer before the document it is on. So +span +span loses documents (c70_and_loses), a MUST_NOT span does not exclude (c70_not_reports), a search without scores reports a document twice (c70_unscored_twice), and a landing after the target scores no spans (c70_lands_unscored). Proved: searches with a span query alone, boolean queries that never jump with a span clause, and the first jump to a document that has spans. The float freq is the list of the lengths added up; sim_sloppy_freq is taken to be above zero.
* **C71 Highlighting with a span query marks the terms inside its spans**: Proved for queries that have a span in the document, without multi-term clauses, and whose near clauses have their terms in the document. The code breaks the property otherwise: without a span (c71_no_span) it reads a range never written; with a near clause whose term is not in the document (c71_near_absent) and with multi-term clauses (c71_multi_reads_past) it reads positions that are not there.
* **C72 Reads through an Index show every earlier write**: Proved for histories in which no lock is refused, alone or (with check_latest and a non-empty index) with other writers if index_delete_term is not called on an out-of-date reader. False otherwise (witnesses): a reader of an index without segments never notices commits of others; index_delete_term through an old reader silently deletes nothing or raises; with auto_flush index_delete_term keeps the lock; a refused index_add_doc removes the lock of the other writer and a later one is lost.
* **C73 A keyed Index keeps one document per key**: Proved for key fields that are untokenized, single-valued and in every document, when no lock is refused. False otherwise (witnesses): a document that lacks one key field replaces one that has it; one that lacks the only key field is added each time; with two key fields another writer can come between, then both documents are gone.
* **C74 Cleaning a query text keeps its words and leaves it well formed**: In bounds and words kept for every text; unchanged where nothing is to be cleaned. Matched quotes and parentheses for every text that does not end in a backslash escaping nothing and has no escaped backslash inside quotes; escaped phrases for every text without backslashes inside quotes. The code violates the full claim: a backslash at the end escapes the parenthesis appended ((abc\ becomes (abc\)), an escaped backslash inside quotes loses one backslash and the other escapes the closing quote, an escaped special character inside quotes loses its escape ("a\(b" becomes "a(b"), and an escaped < before > inside quotes becomes the mark of a gap.
* **C75 Words of a query are read as written**: Progress and bounds for every text that has no two colons side by side or is shorter than 255 characters; words as written for all words given by pieces (characters for themselves, escaped characters, pairs of colons). The code violates the full claim: a pair of colons written at characters 255 and 256 of a word steps over the test for the end of the buffer (it tests for equality), so that everything after is written behind the buffer; keywords stay keywords when every letter is escaped; in a word with a wild card an escaped star is a wild card too. Keywords and signs (-, !, +, &&, ||) are read as what they say, behind any blanks.
* **C76 Parsing a query text always ends, and gives only what the text means**: Proved for all tame texts (words of at most 253 characters, no | behind >, numeric slops): the parser ends within 20 turns per character, without undefined behaviour; every query is the meaning of a tree written with exactly the tokens. Disproved otherwise by witnesses: "<>|f" reads before the phrase's positions; "a b"~x uses an unset slop; a 255-character word followed by another word is read after being freed; a range out of order inside a field clause leaves the field stack, and the next parse (or, with handle_parse_errors, this one) fails an assertion. AND binds no tighter than OR: a OR b AND c demands only c. A pattern of 254 characters that is put in lower case makes the parser write one byte outside of its buffer; with 253 it does not.
* **C77 Every query of the query language can be written, and is read as what it means**: Proved for every tree that is tame and in order (C76), has no fuzzy word without similarity right before a word, and nests less than about ten thousand places of the parser stack. Disagreement with the code: a word behind w~ is taken as its similarity even behind a blank, so it is not searched for (c77_fuzzy_takes_word).
* **C78 What words, phrases and patterns of a query text ask for, in one field and in several**: Code disagrees: patterns and range bounds lower-cased for one field stay lower-cased for the fields after it (t|k:A* asks for a* in the untokenized k), and the words of a one-place phrase "the|X" are replaced by the first field's tokens for the fields after it; f:* becomes the query for all documents, with or without the field. Missing: phrases with words that the analyzer splits or stacks.
* **C79 Filters and filtered queries restrict searches exactly**: Filtered searches and filtered queries report exactly the hits of the query that pass, in order, with their scores; the bits of a query filter are exact; over any history of deletions every filtered search is exact although the bits are computed once. Violated: after undelete_all the kept bits hide documents that are back; a filtered query over a query for which no scorer is made calls a NULL scorer; a constant-score query over a filter used before reports documents deleted since. Not modelled: explanations (fqw_explain ignores the filter), the boost of a filtered query (ignored by the code). Missing: conjunctions below conjunctions (C36).
* **C80 Exceptions run the parts of blocks once and end as they say**: Proved for every program that runs smoothly (Spec.smooth, computed along the documented meaning): the machine of contexts and jumps leaves the marks the documentation says and ends as it says, only so, and gives the stack of blocks back; a cleanup part runs once. Missing because the code disagrees: (1) a block inside a XFINALLY or XCATCHALL part that lets an exception out makes xpop_context raise into the context although it is in its last part, which is begun again, for ever if it raises again (c80_finally_never_ends); (2) a case part that raises a code it catches is begun again for ever (c80_case_never_ends); (3) the FINALLY part of TRY ... ENDTRY is not run when the exception is not caught or not handled, contrary to the documentation of except.h (c80_finally_skipped). Not modelled: RETURN_EARLY, message texts (a RAISE that is ignored in a cleanup part overwrites the static buffer the pending message lives in). In the library: sis_write's cleanup part closes a stream that is NULL if creating it failed, and in its second block a stream closed already.
* **C81 Opening an index while another process commits**: Proved for directories with a commit of generation 1 or more and a writer that removes the segments file before (the deleter): whatever the interleaving, the reader gets a whole commit that was the newest at some moment of the round that found it, no error, and n rounds without an end mean that (n-1)/2 commits were finished meanwhile; in a still directory at most 16 rounds whatever it holds. Missing because the code disagrees: while the second commit of an index (generation 1) is written the index cannot be opened, since generation 0 is never fallen back to (c81_first_commit_unreadable); a reader that sees the segments file cut just within the head of the field infos crashes (c81_reader_crashes); sis_read_current_version reads only 12 bytes, so is_latest says a reader is stale on behalf of a commit that is not finished and may never be (c81_version_of_unfinished). Reading a file is one access; opening the segments themselves (ir_open) is not part of the run.
* **C82 An explanation of a document gives its score**: Explanation = score for hits and zero for other live documents, with exact arithmetic, for boolean queries of terms and all documents with positive boosts and norms. The code disagrees with the English statement: constant-score queries are explained as matching every document (csw_explain gives the value in both branches), so a query prohibiting one (ranges become such) explains all its hits with zero; fqw_explain leaves the filter out; bw_explain counts clauses without a scorer in the coordination factor; a required clause scoring zero (field without norms) is taken as not matching; document numbers out of range read outside the norms. Missing: phrase, multi-term and span leaves over existing fields, rounding.
* **C83 Searching again with a query gives the same result**: Proved for every history of searches with queries of unshared objects and positive boosts in which no boosted one-clause boolean query holds an unboosted innermost one. The code violates the full statement: a search with ((a))^2 multiplies the boost of a again every time (c83_boost_grows, c83_scores_drift), a clause object shared by two boosted queries gets both boosts (c83_shared), a query that only prohibits keeps the clause a search added (c83_prohibited_grows), and the boosts a user reads change (c83_boost_shown). Rounding, reference counts and the clause limit are not modelled.
* **C84 Excerpts are tagged parts of the text that show the best matches**: The code does not do it for a run of matching positions whose text is longer than an excerpt: as first match it makes an excerpt that ends before it begins, and the match before the first is read (C84_long_match); as a later one it is not shown (C84_long_match_lost). Expanding excerpts can show matches without tags (C84_untagged). Compressed fields, empty texts and offsets that go back are excluded as in C46.
* **C85 Highlighting marks what the query asks for**: Proved for all term vectors in order and all queries whose typed ranges meet no word of the length of a number, and whose phrases have parts. The code disagrees: a typed range reads a variable without value for a word as long as the bounds from which no number can be read (C85_words_for_numbers); a phrase without parts reads outside of an array (C85_no_parts); a sloppy phrase with one part uses a NULL pointer (C85_one_part); a sloppy phrase all of whose parts are moved forward is not marked (C85_moved); one word is marked for two parts of a sloppy phrase, which a search does not find (C85_repeated_word).
* **C86 The text of a query is put together from its parts without writing outside the memory allocated for it**: The text of every query with finite boosts, words at the places of its phrases and at most 39 clauses in near-span queries is the specified one and all buffers suffice (c86_text_partial); formats are written out (c86_format). The code violates the property otherwise: every near-span query with 40 or more clauses overruns its buffer (c86_near_over: spannq_to_s counts no commas, q_span.c 1995-2020), a term query with an infinite boost gets no terminating zero (c86_infinite: dbl_to_s returns without writing, global.c 138-167), the text of search results with a hit reads freed memory (c86_hits: td_to_s drops what estrcat returns, search.c 209-220), and a format ending in a lone % is read past its end (c86_format_end).
* **C87 The text of a query, parsed, gives back the same query**: The text of every query in ReadsBack (terms, phrases, prefixes, patterns, fuzzy words, ranges, boolean queries of two or more clauses nested up to 1600 deep, with words that need no escapes and that the analyzer keeps) is parsed to exactly that query (c87_round_partial, with to_s itself in c87_to_s_partial), so texts tell such queries apart (c87_text_tells_partial). The code violates the property otherwise: single clauses lose their sign or gain everything (c87_one_clause), a word behind a fuzzy word becomes its similarity (c87_fuzzy_then_word), words are not escaped (c87_not_escaped), and words at one place of a phrase that were added one by one are read as one word (c87_same_place: phq_to_s writes &, q_phrase.c 965-1066, which the parser has no rule for).
* **C88 Searching for many terms at once**: Proved for a segment's dictionary written and opened (C20), every list of terms and every sequence of calls with targets not negative; scores under exact addition. Partial: prefix and wildcard queries only when no more terms match than they may expand to (C42) and without the empty term; boolean scores when every clause has a term in its field; explanations for queries with at least one term, because explaining a query without terms over an existing field writes before the beginning of a buffer (c88_violated_no_terms). Readers of several segments are C23, C24.
* **C89 The legacy standard tokenizer gives parts of the text, in order, leaving nothing out**: Disagreements: a text that begins with a mark and a digit may make it read the byte before the text (c89_sign_first_ub); 300 letters before ://, 256 slashes after a colon and acronyms of 257 letters overflow a buffer of 256 bytes (c89_scheme_ub, c89_slashes_ub, c89_acronym_ub). Proved for texts with a blank among any 257 bytes that do not begin with a mark and a digit: safe, tokens are parts of the text in order, every letter and digit is in one (single-byte); and exact tokens for all lists of words of nine kinds. Multi-byte: that letters are covered is missing.
* **C90 A store on disk behaves as a store in memory**: Proved for names of index files and locks, histories that touch only absent files and ask lengths only of present ones, and calls that open and close stores one after the other. False beyond: touching an existing file cuts it on disk only (c90_touch_cuts), a failed touch is not reported (c90_touch_denied, c90_touch_errors), the length of an absent file differs (c90_length_missing), other files are not cleared on disk (c90_clear_keeps) nor counted when their names begin with a byte above 127 (c90_count_skips), long paths are cut so that all names are one file (c90_long_paths), closing a store removes the locks of others (c90_close_unlocks, c90_lock_lost), and a store is freed while another thread has it (c90_close_race, c90_count_race).
* **C91 A MultiSearcher finds in each searcher what the query finds there alone**: Proved for queries whose patterns are in no clause that prohibits: the only other outcome is STATE_ERROR. The code departs from the English property: a pattern in a prohibited clause lets documents through that the query excludes (c91_excluded_found), scores depend on the vocabularies of other searchers and duplicate clauses are dropped (c91_scores_differ, c91_clause_dropped), and a query of more than 1024 optional words is refused (c91_refused). Not here: limits on the number of terms of patterns, boosts.
* **C92 Queries are freed once and only when nobody uses them**: For boolean queries with coordination nothing is used after it is freed, counts are right and everything is freed unless an exception was raised. False otherwise: bq_rewrite copies the similarity pointer of a query without coordination, which is then freed twice; bq_add_query to a full query and a refused search leak; searching a query of prohibited clauses adds a clause to it. Missing: MultiSearcher, that rewriting ends.
* **C93 Norms that are set are the norms that are read**: Proved for readers of one index, any number of segments, any history of set, read, commit and open. False otherwise: ir_set_norm does not check document numbers; mr_set_norm_i (index.c 4885) clears the cache of the reader's field number instead of its own; mr_get_norms_into does not clear memory for readers without the field; setting a norm frees the array a running search reads; span queries dereference a null pointer for fields without norms in an index of one segment.
* **C94 A reader of several indexes reads every field by its name**: Proved for any number of indexes with one segment each. Missing: indexes with several segments, whose readers are themselves readers of several, and reading of documents by a term (C24 applies to the map that is opened, but is not restated).
* **C95 Changes through a reader of several indexes are guarded by the locks of the indexes**: False in the code for deletions and undeletions: mr_delete_doc_i calls the reader of the index without acquiring its write lock, so that a document is deleted while a writer is open, and the commit of a reader that is out of date overwrites what was committed. Proved for setting norms. A commit leaves what other readers set to be committed by them.
* **C96 Streams of tokens are independent of each other**: c96_streams_partial: every program that the memory-free specification allows (making, wrapping, copying, resetting, asking, per-field analyzers, references given up in any order) prints what the specification says, uses nothing freed, and frees all. c96_own_tokens_partial: a stream of an analyzer gives the tokens of its own text whatever happens to others and to the analyzer. The code violates the property: a hyphen filter copied within a token keeps a pointer to the token of the original and reads freed memory when the original is given up (c96_hyphen_copy_ub) or writes to the token of the original (c96_hyphen_copy_writes); reset within a token it gives parts of the text before (c96_hyphen_reset); a stem filter for an unknown algorithm is made and undefined when asked (c96_stemmer_ub); adding a mapping to one stream makes the others undefined (c96_mapping_late_ub) or changes what they give (c96_mapping_shared). Not covered: filters put over a stream that was given a text, per-field analyzers of per-field analyzers, running out of memory.
* **C97 Documents keep what is put into them and are freed once**: Proved for all programs that keep to the rules of docRun (use what is there, free it once, fewer than 2^29 texts in a field, printed texts shorter than 2^31). The code disagrees with the property: index_add_array with two or more texts always raises, because all become fields of the same name (ind.c 272-275), proved for every index and all texts; index_add_string leaves the copy of its text in memory, since df_new does not own data; doc_to_s cuts fields at a NUL; a field in two documents or a text owned twice is freed twice.
* **C98 A store copied into memory has the same files**: The English property is false of the code: a file of 2^32 bytes and more is cut silently and one of 2^31 bytes and more cannot be copied, since copy_files keeps the length in an int (c98_long_cut, c98_long_fails, for all such files); which names are left out differs between stores: in memory all that begin with ferret-, on disk those that end in .lck and those that begin with a character up to / (c98_foreign_lost, c98_hidden_lost); no lock is held, so a store changed meanwhile is copied as it never was, or an error is raised (c98_changed_meanwhile, c98_removed_meanwhile). Proved for all histories with shorter files: the copy is the directory without the files that begin with ferret- (memory), or without its locks (disk, with the names of C90), and the original is as before.
* **C99 Enumerations, lookups and deletions by term agree while documents are deleted**: The English property is false of the code: an enumeration copies the pointer to the deleted documents of each segment when it is opened, so one opened while a segment has no deletions gives documents deleted afterwards (c99_blind_enumeration), and one opened while it has some uses freed memory after undelete_all (c99_undelete_ub). Proved for all histories: exactly which documents enumerations give otherwise; lookups and deletions by term are right in all of them (c99_lookup, c99_delete_term).

## Not modelled

Memory allocation failure, reference counts and freeing (except in `RamDir` and `HashSet`, where a use of freed memory is undefined behaviour), floating point rounding (scores are an abstract arithmetic unless stated), threads (except the lock clients), the Ruby binding, the analysers and stemmers, the query parser.

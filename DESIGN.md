# Formal model of QLever (pinned commit in /repo) — design

## Trusted base

* Lean 4.33.0 kernel. Theorems depend only on `propext`, `Classical.choice`, `Quot.sound` (or a subset);
  no own axioms, no `sorry`, no `native_decide`, no `bv_decide`.
* The correspondence between the Lean definitions and the C++ text is by reading. Each definition cites the file
  and lines it models and says where it simplifies. Nothing of /repo is executed.
* Not modelled anywhere (trusted or out of scope): ICU collation (abstracted to a total order), RE2, STXXL sorting
  (abstracted to "a sorted permutation"), std::sort (same), hash-table layout (abstracted to an arbitrary iteration
  order), file-system errors, sockets, threads below the granularity of a critical section, floating point.

## Layout

* `lean/Verif/Model/*.lean`  — model of the C++ functions, one file per unit, with citations.
* `lean/Verif/Spec/*.lean`   — small independent specifications (no reference to model helpers).
* `lean/Verif/Lemmas/*.lean` — helper lemmas.
* `lean/Verif/Props/*.lean`  — the property theorems listed in MANIFEST.json and the `example`s showing that their
  hypotheses are met by concrete non-trivial data.
* C++ undefined behaviour (reads out of range etc.) and thrown exceptions are distinct outcomes
  (`Outcome.ub`, `Outcome.throw`), never silently replaced by a value.

## Plan per property

| id | model | theorem shape |
|----|-------|---------------|
| C01 | `Simple8bCode::encode/decode` on lists, words as naturals < 2^64 | round trip by strong induction on remaining length; word count bound |
| C02 | writePostings / read*ComprList on top of C01, codebook an arbitrary permutation of the distinct values | round trip |
| C03 | char-list recursion for both functions | round trip, no newline in output |
| C04 | compress/expand with sorted prefix list; vocabulary file as list of lines; prefix file as lines | round trip; violation witness for a prefix containing a newline |
| C05 | offsets array + data array | round trip for every index; serialised form |
| C06 | labelled transition system on (left, outstanding) | invariant by induction over all interleavings |
| C07, C08 | FlexibleCache as maps + score queue | invariant and refinement over operation sequences |
| C09, C10 | ConcurrentCache as transition system with threads | inductive invariant over all interleavings |
| C11 | HeapBasedPQ (lazy deletion) and TreeBasedPQ | refinement for monotone updates; violation witness otherwise |
| C12 | zipper join, index based | equals nested-loop join |
| C13 | gallop join, index based with ub | violation witness; correct variant |
| C14-C16, C50 | merge algorithms, index based | equality with nested-loop specification |
| C17 | Union with chunks | equality with specification; result type violation |
| C18, C19 | unique / comparator | specification |
| C20 | offset/limit arithmetic modulo 2^64 | equality with take/drop; overflow witness |
| C21 | doGroupBy / processGroup | per group specification; empty grouping violation |
| C22, C23 | Filter on ids, vocabulary bounds | equality with List.filter; violation witnesses |
| C24 | DFS with marks | reachability; violation witnesses |
| C25 | flat array table | refinement to list of rows |
| C26-C28 | relation writing and scanning | round trip, bit fields |
| C29 | byte serialisation | round trip; violation witness for text metadata |
| C30 | binary search with wrap-around | correct when present; violation witness |
| C31 | k-way merge and id mapping | iff; violation witness for external words |
| C32-C34 | pattern building and use | specification; violation witnesses |
| C35-C37, C57 | FTS algorithms | specification; violation witnesses |
| C38, C39 | Values, Bind | specification; violation witness |
| C40 | cache keys as strings built by the code | collision witnesses; injectivity where it holds |
| C41 | the tasks and threads of all stages as a transition system, any schedule | invariant: the stream of batches a state will still deliver; well-founded internal steps |
| C42, C43 | file as bytes + metadata, crash between file system calls | refinement / crash safety |
| C44 | decodeUrl, parseHttpRequest | round trip; violation witnesses |
| C45, C60 | digit strings, dates | order embedding on canonical inputs; violation witnesses |
| C46 | getResult on top of C09 | invariant |
| C47 | tokenizer + recursive descent | print/parse round trip; canBeNull violation |
| C61 | planning of paths | induction over trees: solutions of the pattern = relation of the path; chunk violations |
| C62 | Turtle documents | mutual induction over syntax trees: text → triples; length measure for termination; violations |
| C63 | Turtle files in blocks | prefix stability of every production; invariant of the re-reading loop; termination measure; violations |
| C64 | N-Triples and TSV lines | exact characterisation of the positions found by the scanning loops; violations |
| C65 | query planner (dynamic programming) | invariant of all plans in the table, refinement of execution to the join of bags of solutions; violations |
| C66 | planning of groups with OPTIONAL, MINUS, UNION, nested groups, BIND | refinement of plans to the SPARQL algebra by induction over the children of the group; violations |
| C67 | the lexer for queries | round trip from token sequences with arbitrary layout, by induction; semantics of the backtracking regular expressions; violations |
| C68 | the parser for queries | round trip from abstract queries with arbitrary layout, by mutual induction over groups and queries; violations |
| C69 | `ParsedQuery::expandPrefixes` | refinement of a relation between queries with and without prefixes, by mutual induction; violations |
| C70 | `checkUsePatternTrick`, `getPatternTrickRow` | refinement: the triple commutes with the other parts of the query (permutations of solution lists, mutual induction), then C33; violations |
| C71 | `runAcceptLoop`, `process`, `getHTTPRequest`, `send`, `serveFile`, error JSON | round trip (JSON string, HTTP response), induction over chunks, decision logic, non-interference for files; violations |
| C72 | `composeResponseJson`, `composeResponseSepValues`, `writeJsonTable`, `writeTable`, nlohmann `dump` | round trip over all JSON values (mutual induction), refinement of the exported table, composition with C20 and C71; violations |
| C73 | `addTextFromContextFile`, `passContextFileIntoVector`, `calculateBlockBoundaries`, `createTextIndex`, `getWordPostingsForTerm`, `getEntityPostingsForTerm`, `getContextEntityScoreListsForWords` | refinement of the whole pipeline to occurrences in the text, composed with C02 (lists), C29 (metadata), C35 (intersections), C49 (prefixes); violations |
| C74 | `ContextFileParser::getLine` | round trip over all files, composed with C73; violations |
| C75 | `collapseTextCliques`, `getTextLeafPlan`, `TextOperationWithoutFilter`, `TextOperationWithFilter`, `getECListForWords*`, `getFilteredECListForWords*`, `getContextListForWords` | refinement to bindings of variables, composed with C73 (index), C48 (split), C37 and C57 (best records); violations |
| C76 | `seedWithScansAndText`, `IndexScan` (width, order, columns, `computeResult`), `Join::getScanMethod` | refinement to the matches of a triple pattern, composed with C26, C27 (permutations) and C65 (planner) to the solutions of a basic graph pattern; violations |
| C77 | the prefix tree (`insertAfter`, `insert` with start points and stale parents, `getMaximum`, `penaltize`), `calculatePrefixes` | invariant over all insertions; greedy choice refined to an independent count of covered characters; composed with C04; violations |
| C78 | `ParserBatcher` and the loop over partial vocabularies, `tripleToInternalRepresentation`, lookup of constants and display of ids; with the models of C31, C58, C27, C65, C76 | composition: ids and terms correspond one to one, solutions transfer in both directions; violations |
| C79 | the way through `Server::process` for queries of triples and comparisons, with the models of C64, C65, C68, C69, C71, C72, C76, C78 | composition: text of the query to patterns, patterns to table, table to JSON, read back by the client |
| C80 | the way through `Server::process` for queries with GROUP BY, HAVING and COUNT, MIN or MAX, with the models of C21, C22 and C79 | composition: the table of the plan is grouped and aggregated, ids are shown as terms one to one and in order, so rows with the same ids are solutions with the same values and the largest id shows the largest term |
| C81 | `RuntimeInformation` (names, times, `to_json`), `Operation::getResult`, `createRuntimeInformation` | invariant of the entries of the cache over sequences of queries, mutual induction over operations; plans of C65 for the names; round trip of C72 for clients |
| C82 | `Timer`, `TimeoutTimer`, `checkTimeoutAfterNCallsFactory`, `computeLambda` in `getResult`, parameter `timeout` | invariant of the timer over sequences of uses with arbitrary readings of the clock; induction over calls for loops |
| C83 | `SortPerformanceEstimator`, call in `Server::initialize`, decision of `Sort` and `OrderBy` | induction over the table of samples; invariant of `min_element`; remaining time of C82 |
| C84 | `convertHmapMetaDataToMmap`, `convertMmapMetaDataToHmap`, `writeNewPermutation` | invariant of the copying loops, then the round trip of C28 and C29 for the converted meta data |
| C85 | `MetaDataIterator` and the loop of `createPatternsImpl` over it | induction over the triples that are left |
| C86 | prefixes and configuration in `createFromFile`, `readConfiguration`, `CompressVocabAndCreateConfigurationFile` | round trip of the file with prefixes by induction; case distinction |
| C54-C56 | declared sort orders, local vocabulary, HAVING | theorem per operation; violation witnesses |
| C48, C49, C51, C58, C59 | string utilities, prefix ranges, DocsDB, vocabulary lookup, filter conditions | specification; violation witnesses |

Details per property (what is modelled, what is not, disagreements with the code) are appended below as the work proceeds.

## Details and disagreements

Each entry: what is modelled, what is simplified, and where the code does not satisfy the property as stated
(theorem names of the negations in brackets).

* **C01** `Simple8bCode::encode/decode` complete. Values ≥ 2^60 make the encoder loop forever [`C01_too_large_diverges`].
* **C02** `writePostings` and the three list readers, codebook in any order. The writer's `AD_CHECK`s make an empty list
  throw [`C02_empty_block_throws`].
* **C03, C52** all of RdfEscaping.cpp. UTF-8 encoding of code points is a parameter. A numeric escape that ends exactly at
  the end of the content is rejected because line 79 uses `<` instead of `<=` [`C52_trailing_numeric_escape_rejected`];
  the one-character input `"` makes `remove_suffix` underflow [`C52_single_quote_ub`].
* **C04** compressPrefix/expandPrefix, prefix list building, the prefix and vocabulary files as lines. A prefix that contains
  a newline destroys the prefix file [`C04_newline_in_prefix_corrupts`].
* **C05** `CompactStringVector` build, access, file form; limits of the index type checked by the code are modelled as throws;
  one is not checked [`C05_many_empty_lists_ub`].
* **C06** allocator as a transition system with separate counter and heap steps. If the heap allocation throws after the
  counter was decreased, the bytes are never given back [`C06_bad_alloc_leaks`].
* **C07, C08** `FlexibleCache` with separate access map, pinned map, queue and running totals; pops may take any minimal entry.
  `FlexibleCache::erase` and `TreeBasedLRUCache` do not compile when instantiated; modelled as intended / not modelled.
* **C11** both queues. `HeapBasedPQ`: an entry whose score returns to an earlier value is popped twice
  [`C11_heap_double_pop`]; handles stay usable after `clear()` and corrupt the size [`C11_heap_after_clear`].
  The LRU cache never does either (scores are non-decreasing clock values; all handles are dropped on clear).
* **C09, C10, C46** `ConcurrentCache` as a transition system over the cache model: any number of requests, any interleaving of
  the critical sections, any computation outcome. `std::move(key)` in moveFromInProgressToCache is harmless because
  `insert` takes `const Key&`. Not modelled: `getStorage`, thread scheduling fairness (progress is stated as "an enabled
  step exists, and at most four steps of the responsible request are needed"), the text of exceptions. Surprise: a pinning
  request can make the (successful) computation of a non-pinning one fail [`C10_pinning_spoils_other_request`].
* **C12, C13** `Join::join` with all three branches; every loop is a `loop` with fuel and the theorems hold for all fuel above
  an explicit bound (so they include termination). `std::lower_bound` is modelled by its contract. Defect: in the
  left-larger galloping case `last` is initialised with the position in the other table, so `lower_bound` gets an inverted
  range [`C13_left_larger_ub`]. The index scans that feed joins on full relations (`computeResultForJoinWithFullScanDummy`)
  are not modelled here.
* **C14, C15** `computeMultiColumnJoin` and `optionalJoin` complete (one model of the shared loops, three parameters for the
  rows that are written). C15 also proves the order promised by `resultSortedOn`. Defect: `MultiColumnJoin::getVariableColumns`
  numbers the right variables in hash iteration order [`C14_labels_violated`]; `OptionalJoin::getVariableColumns` does it
  right [`C15_labels`]. More than 32 right columns: undefined shift [`C14_wide_tables_undefined`].
* **C16, C50** `computeMinus`, two-column `Engine::filter`, `TwoColumnJoin::computeResult`. Values are compared as ids;
  unbound values (`ID_NO_VALUE`) are equal to themselves here, as in the code (SPARQL would treat them as compatible with
  everything). Defect: duplicates in the two-column relation do not multiply [`C50_violated`].
* **C53** an additional invariant over the executions of the concurrent cache model. `Event.maintenance` records which cache
  operation was performed, so that "nobody has called `clearAll`" can be stated. Found while testing C09 against a wrong
  model (the pin flag of a waiting request was dropped and no property theorem mentioned it).
* **C17** `Union::getVariableColumns`, the constructor's `_columnOrigins`, `computeUnion` with its chunks, the result types.
  Hash maps are association lists in any order. Defect: line 143 asks the *left* input for the type of a column of the right
  input [`C17_types_violated`]. Preconditions shown necessary: all columns of the left input belong to a variable
  [`C17_hidden_left_column`], at least one variable [`C17_no_variable`].
* **C18, C19** `Engine::distinct`, `Engine::sort`, `OrderBy`, `Sort` and the planner functions that put them on a plan
  (`getDistinctRow`, `getOrderByRow`), for every truthful declared order. `std::sort` by contract: any sorted permutation if the
  comparison is a strict weak ordering on the rows, undefined otherwise (so the strict weak ordering is proved, not assumed).
* **C20** `composeResponseJson/SepValues`, `atol`, `writeJsonTable`, `writeResultToStream` with arithmetic modulo 2^64. Defect:
  TSV/CSV with OFFSET and no LIMIT always exports nothing [`C20_violated`]. Not modelled: the "send" parameter is a number
  below 2^63; negative numbers after LIMIT (accepted by the lexer) are outside the theorems. LIMIT/OFFSET of subqueries are
  ignored by the planner (not modelled).
* **C54** Defect: `OrderBy::resultSortedOn` drops descending keys, so `ORDER BY DESC(?a) ?b` in a subquery claims to be sorted
  by `?b`; the witness shows a join on top of it losing a row [`C54_orderBy_violated`].
* **C55** Defect: only Distinct, Filter, Bind, OrderBy and Sort copy the local vocabulary; Join and Minus (and MultiColumnJoin,
  OptionalJoin, Union, TransitivePath, which are not modelled for this property) do not [`C55_join_violated`,
  `C55_minus_violated`].
* **C56** Defect: `getHavingRow` builds every filter on `parent` instead of on the previous filter [`C56_violated`].
* **C21** `doGroupBy`, `processGroup` (all nine aggregates and five result types), `computeResult`, `computeSortColumns`,
  `getGroupByRow`. `float` and the strings behind ids are an abstract structure `Env`, so the theorems hold for any arithmetic;
  for MIN/MAX the comparison is assumed to be a total preorder on the finite values (`FiniteFloats`). Defects: without GROUP BY the
  inclusive end of the single group is one too large, so COUNT is n+1 and other aggregates read behind the table
  [`C21_noGroupBy_violated`, `C21_noGroupBy_reads_behind`]; empty input without GROUP BY gives no row [`C21_emptyInput_violated`];
  AVG DISTINCT divides by the number of all values [`C21_avgDistinct_violated`]; GROUP_CONCAT DISTINCT leaves delimiters at the end
  [`C21_concatDistinct_violated`, `C21_concatDistinct_violated'`]; FIRST/LAST get the type KB [`C21_first_violated`];
  `GROUP BY ?a ?a` writes behind the row [`C21_duplicate_name_violated`].
- **C22, C23** (Model/Filter.lean, Props/C22_C23_Filter.lean).  `std::lower_bound`/`upper_bound` are modelled by their contract; a range
  that is not partitioned is undefined.  Words are an abstract type ordered by a rank into any linear order, so that words that the
  comparison level does not distinguish are covered.  Proved: comparison with a fixed value (sorted and unsorted path), comparison of two
  columns, equality of words, prefix conditions connected by `||` (any number of columns, overlapping ranges, both paths), `<`/`>=` with
  any constant.  Disagreements, each proved: `!=` on a sorted column of words loses all rows with larger words
  (`res->insert(res->end(), upper, res->end())`, Filter.cpp:293); `<=`/`>` with a constant smaller than all words treat the first word as
  not greater (`getValueIdForLE` returns 0); `=` on float columns compares with four uninitialised bytes; binary search on float columns
  that are sorted by bytes; counts compared with `-1` or `3.5`; `=` on built strings finds only the first of equal strings; unbound values
  satisfy `>`, `>=` and `!=`.  Not modelled: LANG_MATCHES, REGEX, words in the external vocabulary.
- **C24** (`Model/TransitivePath.lean`, `Spec/Path.lean`). The depth-first search is modelled as the loop it is (explicit stack of positions, marks, result), the hash
  sets as lists that are iterated in any order. Proved with an invariant of the search and a termination measure (`searchBound`): for unbounded paths the result is exactly
  reachability, on any graph. Disagreements: with an upper bound a node first met at a greater depth hides its successors (`C24_bounded_violated`), and the result depends on the
  hash order; with both sides fixed the result is always empty (`C24_both_fixed_violated`); with a bound side, rows with the same join value as the row before
  get that row's other columns (`C24_leftBound_violated`, `C24_rightBound_violated`). Not modelled: timeouts. `C54_transitivePath*` proves the declared order.
- **C25** (`Model/IdTable.lean`, `Spec/RowList.lean`). The table is modelled with its flat buffer, size, capacity (including the growth factor computed in `float`) and `memcpy`/`memmove`
  with bounds; the theorem is a refinement to lists of rows by induction over the operations. Disagreement: `erase(b, begin())` on a table without columns takes its end for the default
  argument and removes a row (`C25_erase_violated`). Also recorded: `operator==` ignores the number of columns, appending a row of the table to itself is undefined
  when it grows, and a moved-from table still reports its rows.
- **C28** (`Model/MetaData.lean`, `Spec/MetaData.lean`). The packed word is a number below 2^64 with the masks of the code; the property is a refinement to a record with five independent
  fields under any sequence of setter calls, proved bit by bit. The multiplicities are given by the integer part of their logarithm (`double` is not modelled).
- **C29** (`Model/MetaData.lean`, `Model/TextMetaData.lean`). Bytes are lists of numbers, a buffer pointer is the rest of the buffer, reading beyond it is undefined. The permutation meta data is
  modelled in both instantiations (hash map, mmapped vector; the content of the vector is assumed to persist, see C42), with hash maps written in any iteration order. Disagreements:
  when text meta data is read back, word blocks are recognised by consecutive ids, so a first entity block with the id following the last word id is taken for a word block
  (`text_reload_violated`); the entity lookup dereferences `end()` for ids beyond all entities with text (part of `text_lookup_reload_partial`).
- **C26, C27** (Model/Permutation.lean, Spec/Permutation.lean, Props/C26_C27_Permutation.lean). Modelled: the three sorts of the
  triple vector and `unique`, `createPermutationPairImpl` with its buffer, `writeRel`, `writeFunctionalRelation`,
  `writeNonFunctionalRelation`, `writeSwitchedRel`, `exchangeMultiplicities`, the bytes of the files, `scan` with one and two keys, the
  block lookups. Both kinds of meta data (hash map for PSO/POS, vector for the others) are those of C28/C29, and
  `scans_after_reload` composes with the serialisation of C29. Proof: an invariant of the loop over the triples says that file and meta
  data hold exactly the finished relations. `std::sort`/`stxxl::sort` are taken by contract (the orders are total on distinct
  triples). Simplifications: multiplicities are any function; triples are at most 2^40-1. Not modelled: stxxl's sentinels (the
  comparators' `min_value` is the possible triple (0,0,0), which stxxl's contract forbids).
  Disagreements: (a) C26 fails for an absent second key when the relation has a block index and all second keys in the block in which
  the key belongs are smaller: `scanNonFunctionalRelation` dereferences the past-the-end iterator of `lower_bound`
  (`scan_two_keys_violated`; `scan_two_keys_exact` says exactly when). (b) For an empty input no permutation is written
  (`empty_input_no_index`), so that the index cannot be loaded.
- **C30** (`Model/ExternalVocabulary.lean`, `Spec/Vocabulary.lean`, `Props/C30_ExternalVocabulary.lean`). The file is modelled byte by byte, offsets are signed 64-bit numbers, `File::read` at a negative offset
  leaves its buffer uninitialised (`ub`), behind the end of the file it never returns (`diverge`), a failing `assert` is a `throw`. The comparison is any total order on a set of words. The binary search is
  the loop of the code. Disagreement: `upper = i - 1` wraps around for `i = 0`; this happens exactly for words smaller than all words in vocabularies of size 1, 4-5, 10-13, 22-29, ... (`BadSize`),
  and then the offset before the first one is read (`lookup_exact`, `lookup_violated`).
- **C31** (`Model/VocabularyMerger.lean`, `Props/C31_VocabularyMerger.lean`). Modelled: the four item maps and which of them handles a triple (any assignment), the two extra triples for language tags, the sort
  of a partial vocabulary (any result of `std::sort` on the maps in any order), `createInternalMapping`, `std::unique`, the bytes of the partial vocabulary files, the k-way merge with a priority queue (any
  minimal element), `writeQueueWordsToIdVec`, the id vectors, `convertPartialToGlobalIds`, loading the two vocabulary files, `idToOptionalString`. The executions form a relation `Run`; `merge_correct` is about
  every execution, `merge_total` says that there is one. Hypotheses: the comparison is a total order in which the first byte decides first (as in `TripleComponentComparator`), words are not empty and do not start with
  a byte above 128. Not modelled: prefix compression (C04), the batches of the merge (processed in sequence), normalisation of the input.
  Disagreements: (a) externalised words that occur in several partial vocabularies get one id for each, because `_lastWritten` is compared after its first character has been replaced
  (`unique_violated`; `merge_correct` says exactly how many), so joins on such words miss results; (b) an empty word at the start gets the id 2^64-1 (`empty_violated`).
- **C32** (`Model/Patterns.lean`, `Spec/Patterns.lean`, `Props/C32_Patterns.lean`). Modelled: both loops over the triples, the selection of the most frequent patterns (entries of the hash map in any order, `std::sort` and
  `std::lower_bound` by contract; `Pattern::operator>` only looks at the first predicate), the two lookup vectors, the packed vectors of C05, the bytes of the patterns file and loading it. Multiplicities are any
  function of the three numbers they are computed from. The specification is the set of predicates of the triples of a subject. `C32_stored` says for every limit which subjects are reported correctly.
  Disagreements: (a) subjects without pattern lose their predicates, because all of them are appended to the list of the last subject (`hasPredicateTmp.back()`), and the first entry of each next subject is skipped
  (`C32_lost`, `C32_violated`); QLever's limit of 2^32-3 patterns hides this; (b) the limit 0 reads the last element of an empty vector (`C32_limit_zero_ub`).
- **C34** (`Props/C34_HasPredicateScan.lean`). The four scans over any index that describes the triples (`Correct`, which C32 provides). Disagreement: `computeSubqueryS` stops at the first row whose id has neither
  pattern nor list, for example a literal or an entity that is never a subject, and loses all later rows, even for sorted input (`C34_subquery_stops`, `C34_subquery_violated`).
- **C35** (`Props/C35_C36_TextIntersection.lean`). `filterByRange`, `intersect` and `intersectTwoPostingLists` on any sorted lists, with their index loops; lists with repeated contexts are described by
  the pairs in order, lists without by the common contexts with the summed score. Disagreements: `getContextListForWords` passes the scores of the second list for both lists
  (`C35_two_words_violated`), which reads behind the end if the second list is shorter (`C35_two_words_ub`); result vectors that are not empty on entry are kept if a list is empty (`C35_intersect_reused_violated`).
- **C36** (same file). The round-robin loop of `intersectKWay` for every k >= 2, with and without entity list (`C36_contexts_partial`, `C36_entities_partial`), and the two callers. Disagreements: for one list only the
  first context is returned (`C36_single_violated`, no caller does this); scores wrap at 2^16 (`C36_overflow_violated`).
- **C37** (`Model/TextAggregate.lean`, `Props/C37_TopContexts.lean`). The aggregation maps (any iteration order), the sets of (score, context), the special case k = 1, `getTopKByScores` with any result of
  `std::partial_sort`, and the aggregation of rows. The specification `IsTopK`/`BestK` says for each entity which contexts are returned. Disagreements: k = 0 still returns contexts (`C37_zero_violated`); a repeated
  posting removes another context (`C37_repeated_violated`, cannot happen with lists from the index); the aggregated score is 16 bits wide (`C37_overflow_violated`); the version for rows keeps the worst contexts and
  does not aggregate the last group (`C37_rows_exact`, `C37_rows_violated`, only used by functions that nothing calls).
- **C57** (`Props/C57_TextVariables.lean`). The cross products of the entities of each context (by division and remainder; `pow` is taken as exact), with and without a subquery for one variable.
  Disagreements: for a subquery with one column and at least two variables, the entities are written one column too far right: one variable is lost and one column is never written
  (`C57_variables_filter_set_exact`, `C57_variables_filter_set_violated`); list sizes are not checked (`C57_sizes_ub`).
- **C38** (`Model/Values.lean`, `Props/C38_Values.lean`). The erasure of rows and variables by index from the back, and the writing of rows with the jump out of the inner loop; the vocabulary is any function from words to
  ids. Disagreement: a row that has UNDEF for a variable that another row binds is dropped, since "UNDEF" is looked up as a word (`C38_exact`, `C38_undef_violated`).
- **C39** (`Model/Bind.lean`, `Props/C39_Bind.lean`). All three kinds of expression, with the types of the columns; `float` abstract with the IEEE facts about NaN as hypotheses (`IEEE`; a stand-in that meets them is given).
  That large integers lose digits when they become `float` is part of `ofId` and not counted as a disagreement. Disagreements: negative integer constants become numbers near 2^64 and -3 becomes "no value"; constants from
  2^63 on are cut (`C39_int_violated`); an unbound cell of an integer column counts as the number 2^64 - 3 (`C39_binary_unbound_violated`).
- **C40** (`Model/CacheKey.lean`, `Spec/CacheKey.lean`, `Props/C40_CacheKeys.lean`). The strings that `asString` of 18 kinds of operations builds, with indentation and widths, and what these operations compute in terms of the
  single models. Keys are a prefix code: `C40_key_determines` reads back everything that is printed. Words must not contain quotation marks or line breaks at certain places (`WF`), GROUP_CONCAT is left out of `WF`. Not modelled:
  keys of BIND, VALUES, text operations and the pattern trick. Disagreements, each with two plans that have the same key and different results: columns of DISTINCT, of UNION, of MINUS, of filters on variables (the names are printed),
  which side of OPTIONAL is optional, the column of has-predicate and of a path with a bound side, DISTINCT inside an aggregate, and the flag of a regular expression. `Sort` and `OrderBy` by one ascending column share a key although
  they break ties differently; this is allowed for (`loosen`).
- **C44** (`Model/StringUtils.lean`, `Model/Http.lean`, `Props/C44_Url.lean`). `decodeUrl` with its index loop, `parseHttpRequest` with `size_t` differences modulo 2^64, `createQueryFromHttpParams`. The specification is a relation between
  strings and their percent-encoded forms. `getLowercaseUtf8` is a parameter; `tolower` is that of the C locale. Disagreements: a request line with the letters `HTTP` is cut off there (`C44_http_violated`), a parameter without `=` takes
  the name and value of the next one (`C44_flag_violated`).
- **C48** (`Model/StringUtils.lean`, `Props/C48_Strings.lean`). `split`, `splitWs`, `splitAny`, `join`, `lstrip`, `rstrip`, `strip`, `findClosingBracket`, `findLiteralEnd`. Specifications: `List.intercalate`, maximal runs (`Words`, proved to be
  unique), a left-to-right scanner for escapes, bracket counts. `splitWsWithEscape` and the case functions are not modelled. Disagreement outside of the claim: `splitAny` with a separator from byte 128 on writes outside of an array.
- **C41** (`Model/Pipeline.lean`, `Props/C41_Pipeline.lean`). Every `std::async` task is a component of the state; `Step` lets any task or thread move at any time, `get` waits for a finished task. The specification (`Spec/Pipeline.lean`) knows no
  batches and no schedules: the values of the source, transformed one after the other; `lane` says which of several stateful transformers is responsible. Proved: results of all calls, absence of deadlocks, termination of the tasks between two calls,
  the loop over partial vocabularies (no line is lost between two pipelines on one parser although batches are fetched ahead), `ParallelParseBuffer`. With batch size 0 the first call returns none (`C41_batch_size_zero`). Exceptions in tasks and
  transformers shared by several threads are not modelled. `Batcher`'s comment says that the creator is not called again after it returned nothing; the code does call it again, which the model keeps.
- **C42** (`Model/Mmap.lean`, `Props/C42_Mmap.lean`). The file is a list of bytes and the model logs every content it has had, so a crash is a choice of one of them; system calls and element assignments are single steps (the five `write`s
  of the metadata are one system call when the stream is closed). The specification is a list of optional elements (`none`: never assigned). Proved: every history gives the specified content, closing and reopening keeps it, and every file
  on the way is refused or opens with a beginning of the content before or after the operation. Violated: a full vector whose last element looks like metadata (`crash_accident`, page 4096, 32-byte elements: the file opens as 2^40 elements),
  creation from a range (the size is written before the elements, `crash_in_fill`), elements of more than half a page (`push_fails_half`, `push_fails_page`; the "MinCapacity" comment does not hold after `resize`), `v.push_back(v[i])`.
- **C43** (`Props/C43_BufferedVector.lean`). `BufferedVector` over the model of C42 against a plain list, for every threshold; with threshold 0 and elements of more than half a page the second `push_back` throws (`large_elements`).
- **C49** (`Model/Collation.lean`, `Spec/Collation.lean`, `Props/C49_PrefixRange.lean`). ICU is not modelled: a collator is a family of sort keys, one per strength, with the laws of `CollationSpec.Lawful` (bytes between 1 and 255, finer levels refine
  coarser ones, the keys at the level IDENTICAL separate normalised words); `Lemmas/CollationExample.lean` gives a collator that meets them. `TripleComponentComparator`, `SimpleStringComparator`, `prefix_range`, `getIdRangeForFullTextPrefix` are modelled
  function by function. Proved for every vocabulary in the builder's order: the range has exactly the words that begin with the prefix as far as the primary keys tell. Violated: key ending with byte 255 (`last_255_violated`), empty key (`empty_key_violated`,
  undefined behaviour), closing quotes, case, words on disk (`external_violated`: never in a range).
- **C58** (`Props/C58_VocabularyLookup.lean`). The comparator of the code is shown to meet the hypotheses of C30 and C31 (`total_order`, `words_ok`), the order of the partial vocabularies is that of the merge (`item_order`), and with C31 every word of the input is found
  under its id (`input_found_partial`: no word on disk in two partial vocabularies, the mark byte 128 sorts like `<`). Violated: index without words on disk (`not_on_disk_violated`: literals of other languages cannot be queried), constants that are not
  normalised (`unnormalised_violated`), text words that differ only above the level QUARTERNARY (`text_violated`, `text_equal_violated`).
- **C59** (`Model/RegexFilter.lean`, `Spec/RegexFilter.lean`, `Props/C59_FilterConditions.lean`). Modelled: `parseRegexFilter` and the function `prefix` of `SparqlParser.cpp`, the branches PREFIX and REGEX of `Filter.cpp`, the constants of filters. `std::regex_search`
  is a parameter. The specification says which regular expressions stand for a text (`Means`); `parse_exact` says which ones the parser takes. Proved: such a filter keeps the rows in which one of the words begins with one of the texts (in terms of
  primary sort keys, C49), for every order of the hash map of ranges. Violated: counts in braces, escaped braces, final backslashes, language tags, case, words on disk, unbound values, escapes on computed strings, constants with inner quotes or with `<`, equality
  of tagged literals, the function `prefix`. The disk policy (`shouldBeExternalized`) is specified in C58 (`disk_tagged`, `disk_untagged`, `disk_entity`).
- **C45** (`Model/Conversions.lean`, `Spec/Conversions.lean`, `Props/C45_NumericLiterals.lean`). Modelled: all of `util/Conversions.h` except the functions for language tags; `log10` is a parameter, exact decimal arithmetic takes the place of floats, and asserts
  are off (release build). The specification has numbers as sign and digits, their rational values, and weights of characters (`Weights`). Proved: for numbers without superfluous zeros and with at most 30 digits, the words are ordered as the values, for
  every order of characters with `+` before `-` (bytes, for example); equal values of one type have equal words; the word is shown as the number without zeros at the end; literals keep their types; filters with `<` and `>=` keep the right rows.
  Violated: the order of ICU's root collation (`-` before `+`), more than 30 digits, leading zeros, numbers without digits before the dot, exponents, equal numbers of different types, large powers of ten, types such as `xsd:long`, `xsd:integer` shown as `xsd:int`,
  constants with a dot compared with decimal numbers.
- **C60** (`Model/Conversions.lean`, `Spec/Dates.lean`, `Props/C60_Dates.lean`). Modelled: `normalizeDate`, `convertDateToIndexWord`, `convertIndexWordToDate`, `removeLeadingZeros`, and the literals of date types. The specification has moments as a signed year and
  five two-digit fields, their texts, and their order in time. Proved for all years of up to 18 (19) digits and every order of characters with `-` before the digits: the words are ordered like the moments, equal words are equal moments, days, months and years
  have the words of their beginnings, dates with positive years without leading zeros are shown as written, all others (except the year 0) as the same moment, and filters keep the right rows. Violated: time zones and fractions of seconds are ignored,
  days with a time zone, the types `date`, `gYear`, `gYearMonth` are lost, leading zeros, negative years, the year 0, long years (exception).
- **C51** (`Model/DocsDB.lean`, `Spec/DocsDB.lean`, `Props/C51_Documents.lean`). Modelled: `buildDocsDB` (lines, `atol`, offsets of missing ids), `DocsDB::init`, `DocsDB::getTextExcerpt` with the bytes of the file, `Index::getTextExcerpt`. The documentation says that the
  column is the largest record id of the document, so the specification looks up the first document whose id is not smaller. Proved for every valid file from the text of the documents file to the shown text: the exact result (the first such document that is not
  empty), hence the right text for documents that are not empty. Violated: a document without text shows the next document; the loop over the offsets does not end behind the last non-empty document; ids that do not increase are moved (assertions off).
- **C47** (`Model/PropertyPath.lean`, `Spec/PropertyPath.lean`, `Props/C47_PropertyPaths.lean`). Modelled: `PropertyPathParser` (tokenizer character by character with its states, all grammar functions with a bound on the depth of calls), `PropertyPath`,
  `computeCanBeNull`. The specification has the syntax of SPARQL 1.1 paths plus `*n`, its text with arbitrary parentheses, the relation a path means, and trees. Proved by induction over the syntax: the text is cut into its tokens, the parser returns the tree, the tree
  means the same relation in every graph, flags are sound in all subtrees, and exact if the sides of alternatives agree. Violated: `(…)*n` is rejected (the number becomes a token of its own), an alternative with one side that matches the empty path has no
  flag, operators are accepted at the place of IRIs. Not modelled: `initDelimiters` refills the static tables at every call (the flag is never set), a data race between threads; incrementing the end iterator in `expectNone`.
- **C61** (`Model/PathPlan.lean`, `Spec/PathPlan.lean`, `Props/C61_PathPlan.lean`). Modelled: `seedFromPropertyPathTriple` and all `seedFrom…` functions of the planner with the counter of internal variables (splitting of sequences into chunks, bitmasks, unions,
  `TransPath`); a graph pattern is the list of its operations. The specification gives solutions of patterns (assignments of nodes to names; `TransPath` = between min and max steps of the inner pattern) and compares with the relation of the path (C47). Proved by
  induction over trees: for every tree whose alternatives agree in matching the empty path and whose sequences need one chunk and at most ten optional factors, solutions = connected pairs, in every graph with fewer than 2^64 nodes, with any variables in use.
  Violated: `<a>/<b>*/<c>` (both chunks are put between the outer variables), `<a>/<b>*/<c>/<d>*` (write behind the end of a vector), `<a>*|<b>` (empty path missing), more than ten optional factors (refused). Not modelled: the plan that `optimize`
  makes of the pattern (joins, unions and transitive paths are C12–C17, C24), how often a solution is returned (`<a>?/<b>` returns a pair twice if both ways exist).
- **C62** (`Model/Turtle.lean`, `Spec/Turtle.lean`, `Props/C62_Turtle.lean`, `Lemmas/Turtle*.lean`). Modelled: `TurtleParser<Tokenizer>` (all productions) and `Tokenizer`/`TurtleToken` in strict mode: the regular expressions are transcribed literally into an
  inductive type and matched with RE2's leftmost-first semantics; the productions are one `step` function with fuel for the recursion; exceptions, `std::abort` and the state that is left behind by a production that fails are kept. Hexadecimal escapes are a
  parameter (`hex`). The specification is independent of the parser: syntax trees, the token sequence of a tree, layouts of tokens in text (white space, comments, where two words may touch), and the triples a tree denotes (W3C Turtle 1.1).
  Proved by mutual induction over the trees: every document in the supported fragment is read to its end and yields exactly its triples in order with fresh names for anonymous nodes; by induction over the length of the text: the parser always ends, with
  nesting at most 3·length, and without undefined behaviour. Violated, each with a witness: more than two comments in a row, `@base`, `PREFIX`, predicates with prefixes beginning with `a`, objects with prefixes beginning with `true`/`false` or like `e5`,
  decimals, doubles without a point, `[ … ]` as a subject, the empty prefix. Not modelled: relaxed mode, collections (refused by the code with an exception), relative IRIs, reading in chunks (C63), UTF-8 decoding (characters are code points).
- **C63** (`Model/TurtleStream.lean`, `Spec/TurtleStream.lean`, `Props/C63_TurtleStream.lean`, `Lemmas/TurtlePeek.lean`, `TurtleFirm`, `TurtleStable`, `TurtleAppend`, `TurtleStatement`, `TurtleStream`). Modelled: `TurtleStreamParser` (`initialize`,
  `backupState`, `resetStateAndRead`, `getLine`) over the blocks of a `ParallelFileBuffer`, and `TurtleMmapParser::getLine`; block sizes, `PARSER_MIN_TRIPLES_AT_ONCE` and `BZIP2_MAX_TOTAL_BUFFER_SIZE` are parameters. Proved: a statement that is read from
  the beginning of a text is read in the same way from the whole text (for *all* texts, by a stability property of every regular expression and every production), hence every document of the fragment of C62 is returned completely (as a multiset: batches
  are returned in reverse) however it is cut; a file in one block may also redefine prefixes; every call ends for every text. Violated, with witnesses: a prefix with two meanings in a batch that is read again; a block that ends after a dot inside a
  name when a batch ends there; unreadable rests are dropped without an error; memory-mapped files are read only up to the end of their first statement, and without end if they have none. Simplified: blocks are cut between characters, not inside them;
  reading ahead in another thread and logging are left out.
- **C64** (`Model/NTriples.lean`, `Spec/NTriples.lean`, `Props/C64_NTriples.lean`). Modelled: `NTriplesParser::getLine` and `TsvParser::getLine` with positions, `npos` and the wrap-around of unsigned differences, and `std::getline`. The specification describes
  lines by the grammar of N-Triples (with optional blanks). Proved by computing each position for lines of any length. Violated: the search for the end of a literal stops at the first escaped quotation mark (the loop that looks for escapes starts at
  the quotation mark that `find` returned), so a blank behind it ends the object; `<o>.` is refused; comments and empty lines are refused; objects such as `5` are taken with the rest of the line because `npos + 1` is 0. Not modelled: the stream
  and encodings.
- **C65** (`Model/Planner.lean`, `Spec/Planner.lean`, `Props/C65_Planner.lean`). Modelled: `fillDpTab` with everything it calls for groups without text and transitive paths (seeds, triple graph, `connected`, join columns, `createJoinCandidates`, constructors, variable That plans return (`C65_returns_partial`) is proved by induction over the trees (`Lemmas/PlannerRuns.lean`): the only operation in them that may fail is the join, if its left table is more than 1000 times as long as its right one (C13); then the patterns on the left have more than 1000 solutions together, which the theorem names as the alternative.
  columns and sort orders of the joins, pruning, filters), and the execution of the resulting trees with the join algorithms of C12–C15 and C50, and the joins with scans of all triples. Costs, the order of strings and of hash maps are parameters. The specification is the join of
  bags of solutions of SPARQL: all choices of pairwise compatible solutions. Proved by an invariant over all plans of all rows (which seeds and filters a plan contains, that the sides of a join are sorted on the only shared variable), and by refinement of the execution.
  For tree-shaped groups it is shown that two disjoint connected sets of patterns share at most one variable, hence only joins on one column occur. Assumed: the alternatives for a pattern return its solutions with true declarations (C34, C54), and variables in two
  patterns are bound. Violated: see the theorems `C65_two_columns_violated`, `C65_two_columns_fails`, `C65_filter_dropped`, `C65_full_scan_fails`, `C65_two_full_scans_fail`. Not modelled: OPTIONAL and MINUS candidates, text operations, transitive paths.
- **C66** (`Model/GroupPlanner.lean`, `Spec/Group.lean`, `Spec/GroupQuery.lean`, `Props/C66_GroupPlanner.lean`). Modelled: `QueryPlanner::optimize` with its lambdas `optimizeCommutativ` and `joinCandidates`, on top of the dynamic programming of C65: nested groups, OPTIONAL, MINUS,
  UNION, BIND, the candidates for optional joins and MINUS, the sorting of their sides, `applyFiltersIfPossible`; and the execution of the resulting trees with the algorithms of C14, C16, C17, C18 and C33. The specification is the SPARQL algebra (`LeftJoin` with its condition, `Minus`, `Extend`, `Filter`
  at the end of the group) on bags of solutions. Proved by induction over the children with an invariant about the pending triples and plans; every plan is a refinement of what is before it. `Safe` and `InScope` are conditions on the query only. Not looked into: VALUES, subqueries
  and transitive paths (an operation `op` with given solutions stands for them). Violated: `C66_optional_first_violated`, `C66_optional_disjoint_violated`, `C66_minus_violated`, `C66_bind_first_violated`, `C66_filter_forgotten`, `C66_filter_dropped`, `C66_group_filter_forgotten` (`{ { A FILTER f } FILTER g }` loses `g`).
- **C67** (`Model/SparqlLexer.lean`, `Spec/SparqlText.lean`, `Props/C67_SparqlLexer.lean`). Modelled: all regular expressions of `SparqlLexer.cpp` (with RE2's leftmost-first semantics, from C53), `readNext` with the order of its attempts, case folding of RE2, comments, the normalisation of literals (C52). The
  specification lists the tokens with their spellings after section 19.8 of SPARQL 1.1; `Ends` says what may follow a token without becoming a part of it. Proved: `tokens` of any such text is the list of its tokens. Violated: `C67_names_cut` (`asset:1`), `C67_keyword_first` (for every name), `C67_refused`, `C67_long_string`.
- **C68** (`Model/SparqlParser.lean`, `Spec/SparqlQuery.lean`, `Lemmas/Sparql{Prog,Words,Parser,Modifiers,Groups}.lean`, `Props/C68_SparqlParser.lean`). Modelled: `SparqlParser.cpp` without the parts that only
  tests use (`addWhereTriple`, `readTriplePart`), as programs over the lexer of C67 that look at the next token, advance, or expand it to the next white space; the parser for property paths is the one of C47. The specification has a syntax of queries, the
  words they consist of, texts with arbitrary layout, and the parsed query as a direct translation. Proved by mutual induction: `parse` returns the translation. Lower-casing beyond ASCII is a parameter (`low`), as are
  numeric escapes (`hex`). The bound `n` for loops is at least the number of words. Violated: `C68_end_unchecked`, `C68_langMatches`, `C68_prefix_filter`, `C68_literals`, `C68_language_twice`, `C68_refused`, `C68_limits`.
- **C69** (`Model/Prefixes.lean`, `Spec/Prefixes.lean`, `Lemmas/Prefixes.lean`, `Props/C69_Prefixes.lean`). Modelled: `expandPrefixes` and `expandPrefix` on parsed queries (the types of C68), with `unescapePrefixedIri` of C52. The specification is a
  relation between queries that follows their syntax; with `easy = false` it is what SPARQL demands, with `easy = true` what is proved. Violated: `C69_hidden_wrong` (filters that are not visited), `C69_colon_wrong`, `C69_backslash_wrong`,
  `C69_carets_wrong`, `C69_words_wrong`, `C69_start_wrong`, `C69_context_wrong`, `C69_undeclared_wrong`.
- **C70** (`Model/PatternTrick.lean`, `Spec/PatternTrick.lean`, `Lemmas/PatternTrick.lean`, `Props/C70_PatternTrick.lean`). Modelled: `checkUsePatternTrick` on parsed queries (the types of C68), `getPatternTrickRow`, and the result with C33's
  `CountAvailablePredicates`. Not modelled: the plan for the rest of the query; a hypothesis (`Gives`) says that its rows have the subjects of its solutions. The specification evaluates graph patterns to lists of solutions (join, left join, minus, bind)
  over an arbitrary world of triples, values, filters and expressions. Violated: `C70_distinct_wrong`, `C70_values_wrong`, `C70_optional_wrong`, `C70_no_count_ub`, `C70_no_subject_throws`; also seen in the code and excluded by hypotheses: `MINUS` that mentions the
  predicate is not looked at, filters with several left sides are only checked for the first, and filters that remain when nothing else is left are dropped.
- **C71** (`Model/Server.lean`, `Spec/Server.lean`, `Lemmas/ServerUtf8.lean`, `Lemmas/ServerRead.lean`, `Lemmas/Server.lean`, `Props/C71_Server.lean`). Modelled: one turn of `runAcceptLoop` for one connection: `getHTTPRequest` over a list of results of
  `recv`, `process` with `parseHttpRequest` (C44, now with the texts of the exceptions), `createQuery`, `serveFile`, `createHttpResponse`, the error JSON with the UTF-8 automaton of `dump_escaped`, `send`. Executing a query, the statistics and the time are
  parameters. Not modelled: `cmd=settings`-like parameters of execution (`send`, `pinresult`; see C20), threads, the log. The specification reads responses (status line, fields, body of the given length) and JSON strings independently. An exception that leaves
  `process` is not caught anywhere (`Server.cpp:60-94`, `ServerMain.cpp`), so `throw` means that the program ends: `C71_query_stops`, `C71_utf8_stops`, `C71_byte_stops`, `C71_get_stops`. Other violations: `C71_name_ub`, `C71_blank_violated`,
  `C71_post_violated`, and `C71_export_partial` shows the character set inside the file name.
- **C72** (`Model/Export.lean`, `Spec/Json.lean`, `Spec/Export.lean`, `Lemmas/Json.lean`, `Lemmas/Export.lean`, `Props/C72_Export.lean`). Modelled: the serializer `dump` with indentation 4 for all values, the cells of `writeJsonTable` and `writeTable`
  for the five kinds of columns, `validIndices` with `TEXT(...)`, and the two functions of the server that compose a response; which rows are written is the model of C20. Parameters: vocabulary, text excerpts, the text of a `float`, run time information, times. Numbers are texts.
  The specification is a JSON reader (RFC 8259, with strings as in C71), a reader for rows with separators, and a relation that says which value a cell has. Violations: `C72_not_utf8`, `C72_stops`, `C72_separated_violated`, `C72_unbound_violated`.
- **C73** (`Model/TextIndex.lean`, `Spec/TextIndex.lean`, `Lemmas/TextIndex.lean`, `Lemmas/TextIndexBuild.lean`, `Lemmas/TextIndexLookup.lean`, `Lemmas/TextIndexQuery.lean`, `Props/C73_TextIndex.lean`). Modelled: both passes over the lines, block boundaries, the tuples and `SortText`,
  the loop that writes blocks and their posting lists as bytes (with the models of the posting lists and of the metadata), reading the metadata back, resolving a term, and the lookups for one and two terms. Parameters: which words are short and the comparison of prefixes, the codebooks (any that contain exactly the
  values), the vocabulary of the knowledge base. Not modelled here: parsing of the lines (see C74), the file of the text vocabulary, words that are no valid UTF-8, and the elements that an `stxxl::vector` created with a size may keep.
  The specification says in which records something occurs and with which total score. Violations: see MANIFEST.
  Queries with several terms (`Model/TextIndexTerms.lean`, `Props/C73_Several.lean`): `getIndexOfBestSuitedElTerm`, `getContextEntityScoreListsForWords` and `getContextListForWords` after splitting at spaces (C48). `std::sort` leaves ties open, so the answer is a relation: any term that no other one is better than may be chosen, and C73_several_partial holds for each of them. Disagreements: a prefix without words gives an empty result alone but an exception beside another term; records for two words use the scores of the second list for the first one (C35), here a read beyond its end.
- **C74** (`Model/ContextFile.lean`, `Spec/ContextFile.lean`, `Props/C74_ContextFile.lean`). Modelled: `getLine` of a release build with `find`, `substr` and `atol`, positions modulo 2^64. `getLowercaseUtf8` is a parameter. The specification writes entries as lines. Violations: `C74_score_violated`, `C74_malformed_violated`, `C74_unsorted_violated`.
- **C75** (`Model/TextOperation.lean`, `Spec/TextQuery.lean`, `Props/C75_TextOperation.lean`). Modelled: how the planner collects the words and variables of a text record, `getVariableColumns`, `getResultWidth` and `computeResult` of both text operations, down to the bytes of the index file (C73). The specification reads rows as bindings of variables and does not know columns. A `std::set` of variables is a list without repetitions in any order; the result of the operation that filters is a table with given columns. Violations: `C75_filter_duplicates_violated`, `C75_filter_unwritten_violated`, `C75_spaces_violated`, `C75_question_mark_violated`.
- **C76** (`Model/TriplePlan.lean`, `Spec/TriplePattern.lean`, `Props/C76_TriplePlan.lean`). Modelled: which plans are made for a triple (all cases of constants and variables), `getResultWidth`, `resultSortedOn`, `getVariableColumns` and `computeResult` of `IndexScan`, the scans made by joins with a scan of all triples, the filter for `?x p ?x`. The specification (matches of a triple pattern and of a basic graph pattern, SPARQL 1.1 18.3) knows no columns, permutations or plans. This proves for triples what C65 assumes about the alternatives for a pattern, so `C76_group_partial` goes from the list of triples that was indexed to the answers. The vocabulary is a function from words to ids; all six permutations are loaded. Violations: `C76_predicate_variable_violated`, `C76_repeated_violated`, `C76_absent_violated`, `C76_full_columns_violated`; refused patterns: `C76_refused`. `C76_returns_partial` says that a plan is found and returns unless some of the patterns, but not all, have more than 1000 solutions together.
- **C77** (`Model/PrefixHeuristic.lean`, `Spec/PrefixChoice.lean`, `Props/C77_PrefixHeuristic.lean`). Modelled: the tree with its parent pointers, insertion from a start point, `getMaximum`, `penaltize`, reading the words from the file. A pointer to a node is the value of the node, numbers do not overflow. `std::remove_if` followed by moving out of the removed range keeps the nodes only if they are the last ones; otherwise the model is undefined behaviour (libstdc++ leaves null pointers in the tree, which the next visit follows). The specification counts characters that a set of prefixes covers and knows no tree. Not modelled: the overload for vectors, the log output. Violations: `C77_newline_violated`, `C77_order_violated`, `C77_first_violated`.
- **C78** (`Model/Answers.lean`, `Spec/TermAnswers.lean`, `Props/C78_Answers.lean`, `Props/C78_Documents.lean`). This property puts the parts together: the triples of the parser are divided into batches, become items (C31), get ids, are stored in the permutations (C27); a query is planned (C65, C76), executed, and its ids are shown as words (C58). The specification (`TermBgp`, `docStored`) speaks of terms only. The theorems also say that the tables have a column for every variable of the patterns (`Columns`), and that unbound cells are shown as nothing, which C79 uses, and that ids are in the order of their terms (`C78_order`, specification `TermLess`). The model of the lookup finds nothing where the lookup of the code is undefined (C30); the theorems require the lookups of the constants to be defined. Strings of the query are lists of characters, each standing for a byte. Filters are predicates on terms; that the conditions on ids agree with conditions on terms is C22 and C23. Disagreements: internal triples are visible to queries with a variable as predicate (`C78_internal_violated`); with IRI prefixes kept on disk the predicate for a language contains the mark byte, so language filters on such predicates find nothing (`C78_tagged_predicate_violated`); `num-triples-per-partial-vocab` 0 makes the builder loop forever (`C78_batches_violated`). `C78_returns_partial` is the same for terms.
- **C79** (`Model/Response.lean`, `Spec/Response.lean`, `Props/C79_Responses.lean`). A run of the server for the text of a query: parse, expand prefixes, plan, execute (`Executes`), compose the JSON text (`Responds`) or the text with separators (`Exports`). Only queries that consist of triples, filters that compare two variables, selected variables, DISTINCT, ORDER BY, LIMIT and OFFSET are described (`plainTriples`), and only runs in which each step succeeds; errors are the subject of C71. The specification (`Ask`, `rowsOf`, together with `QueryText`, `TermBgp` and `readJson` of the properties that are composed) says what the client reads: a row for each solution, with null for selected variables that do not occur in the triples. `Solves` says which lists of solutions are answers: without ORDER BY the order is that of the table, with ORDER BY the order of equal rows is open, with DISTINCT it is open which solution stands for a combination of selected values; hence `sols` is existentially quantified. The order of terms (`TermLess`) puts all terms kept on disk behind those in memory, which is not the order SPARQL asks for. Filters compare ids; that the model of plans filters as `Filter::computeResult` does is `filter_run`, that comparing ids is comparing terms follows from `C78_order`, and that the second pass over the filters in `optimize` changes nothing is `filters_again`. The variables of the filters have to occur in the triples, because other filters are dropped (C65); comparisons with constants are left to C22 and C59. DISTINCT and ORDER BY are put on the plans as in `getDistinctRow` and `getOrderByRow`; which of the resulting plans is the cheapest is left open. Turtle files are not composed here, because the form of terms in C78 excludes what C62 allows (numbers, blank nodes). `C79_answered_partial` says when there is a response: the condition `Small` (fewer than all triples have at most 1000 solutions together) keeps joins from reading out of bounds (C13); `small_of_length` derives it from the number of stored triples.
- **C80** (`Model/Counts.lean`, `Spec/Counts.lean`, `Props/C80_Counts.lean`). A run of the server for a query with GROUP BY and COUNT, MIN or MAX: as in C79, but the result of the plan for triples and filters is given to `GroupByRow` of C21, and HAVING (`Restricted`) and ORDER BY are applied to the groups. Of several clauses of HAVING the model keeps the last one, as the code does (C56_violated); the theorems are about at most one, which compares a COUNT with a number below 2^64, since other numbers are compared wrongly (C22_verbatim_violated). Only queries with constant predicates other than `ql:has-predicate` are described, for which the pattern trick is not tried. The specification (`CountAsk`, `countOf`, `smallest`, `largest`, `Groups`, `rowsOf`) speaks of lists of solutions: `sols` are the solutions, each once, `reps` has one solution of each group. Counts are written to cells for ids and hence have to be smaller than ID_NO_VALUE. `FiniteFloats` is assumed because C21 does so for all aggregates; the three aggregates do not depend on it. MIN and MAX compare ids, so the smallest and largest values are those in the order of terms of C78: terms kept in memory come before those on disk. `C80_answered_partial` uses the same condition `Small` as C79.
- **C81** (`Model/RuntimeInformation.lean`, `Spec/RuntimeInformation.lean`, `Props/C81_RuntimeInformation.lean`). Modelled: `setColumnNames` (a write behind the end of the vector is undefined behaviour), `getOperationTime`, `to_json`, and `getResult` with `createRuntimeInformation` over a cache that may drop anything after each insertion. An operation is given by what its virtual functions return and by its evaluated subtrees; times are whole milliseconds, cut from microseconds, and the parent's time includes that of its children. Not modelled: the printed form `toString`, threads, pinning, an operation object that computes its result twice (its children would be listed twice). The specification says which JSON value shows a plan (`Shows`) and when its times add up (`Times`).
  Disagreements: the run time information is stored in the cache before its time is set, so `original_total_time` is always 0 and `original_operation_time` is minus the time of the children; `createRuntimeInformation` keeps only the children, so details such as "Either side was empty" never appear; children of a cached result keep the names of the query that computed it; variables whose columns have gaps (`GROUP BY ?x ?x`) are written behind the end of a vector.
- **C82** (`Model/Timeout.lean`, `Spec/Timeout.lean`, `Props/C82_Timeout.lean`). Modelled: all functions of `Timer` that the engine uses, `TimeoutTimer` with both readings of the clock in `hasTimedOut` and `remainingMicroseconds`, the counting check of loops, the two checks around `computeResult`, and the conversion of the parameter `timeout` (a value outside of `off_t` is undefined behaviour). Readings are arguments, so no clock is assumed; only `C82_not_early` and `C82_measured` need readings that do not go backwards. The uses of one timer by several threads are one sequence because of the lock. Not modelled: the text of messages, exponents, "inf" and "nan" in the parameter, rounding of doubles.
  Disagreements: `hasTimedOut` stops the timer and restarts it with a second reading, the time in between is lost; `atof` gives 0 for texts that are no numbers, so that `timeout=abc` aborts every query; `timeout=10000000000000` is undefined behaviour. Operations that are executed during query planning have their own unlimited timer (`Operation.h:134-136`, the shared one is set after planning), so scans go on after the limit. By reading: composing the response is not checked at all.
- **C83** (`Model/SortEstimate.lean`, `Spec/SortEstimate.lean`, `Props/C83_SortEstimate.lean`). Modelled: `computeEstimatesExpensively` (a failed `AD_CHECK` is `throw`), `estimatedSortTimeInSeconds` with `getClosestIndex`, the limit computed by `Server::initialize`, and the comparison in `Sort` and `OrderBy`. The machine (times, memory, square roots) is a parameter; numbers are rational. Not modelled: rounding, the sort itself (C16), the warning if estimates are missing.
  Disagreement: `initialize` allows samples of at most 5 percent of the triples; below 200000 triples this is less than the smallest sample (10000 rows, one column), the handler for the missing sample has nothing to extrapolate from and fails its assertion "this should never happen", so `ServerMain` ends with an error. The unit test passes the largest number as limit.
- **C84** (`Model/MetaDataConverter.lean`, `Props/C84_MetaDataConverter.lean`). Modelled: both conversions of the handlers (largest id, vector filled with empty entries, loops over all entries), the members that are copied, both loops of the verification (`exit(1)` is `throw`), and the copy of the relations in chunks of 1 GB. The specification is that of C28 and C29 (the last added meta data of each relation). Ids are below 2^64 - 1, since that id marks empty entries of vectors. `convertPermutationToHmap` and `convertPermutationToMmap` are modelled with their choice of the format (every exception of reading counts as `WrongFormatException`). For files with a vector they read the meta data without setting up the vector, which then is empty and throws on access. Disagreements (`C84_lost_violated`, `C84_blocks_violated`): such a file without blocks becomes a hash map without relations, and the verification passes; with blocks both functions end with an exception. Files with vectors of the older format are written anew without their block data (`C84_old_vector_violated`). So `C84_toHmap_partial` is about `convertMmapMetaDataToHmap` for meta data whose vector was set up, which the command line tool does not do. `C84_file_partial` and `C84_upgrade` start from any list of bytes that `readFromFile` accepts: reading it is a sequence of `add` calls with values below 2^64, so the invariant of C29 holds for it. Not modelled: the notes about created files, short reads and write errors.
  Disagreement: `_totalBytes` and `_totalBlocks` are not copied, so the statistics of converted permutations are 0 after the conversion and in the new file.
- **C85** (`Model/MetaDataIterator.lean`, `Props/C85_MetaDataIterator.lean`). Modelled: constructor, `operator++`, `operator*`, `empty`, `scanCurrentPos`, and `File::read` at an offset (which does not end at the end of the file). The specification says where the bytes of each relation are in the file. Not modelled: what the loop does with the triples (patterns are C32), read errors.
  Disagreement: `operator++` calls `scanCurrentPos` also when the end is reached, which reads the element behind the vector; its number of elements is then read from the file into the buffer. The loop sees the end only afterwards.
- **C86** (`Model/Configuration.lean`, `Props/C86_Configuration.lean`). Modelled: the files that the builder writes (a file with prefixes of an earlier build stays), `readConfiguration` for the keys "prefixes", "external-literals", "ignore-case" and "locale", and the converter with all its cases, followed by the renaming its output asks for. Exceptions of the JSON library (an array used as condition) and failed checks are `throw`. Not modelled: the text of JSON files, the keys "prefixes-external" and "languages-internal", the compression of the vocabulary itself (C04).
  Disagreements: `CompressVocabAndCreateConfigurationFile` writes the unchanged `config` to the new configuration file instead of setting "prefixes" to `true`; without configuration file it stores the list and no locale; the test for a separate file with prefixes rejects indexes built without compression.
- **C33** (`Props/C33_CountAvailablePredicates.lean`). Both loops with their hash maps (any iteration order). Equal subjects must be adjacent; the planner sorts the input. Not modelled: the statistics that are only
  logged.

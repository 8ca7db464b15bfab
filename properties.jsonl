{"id": "C01", "title": "Simple-8b integer lists survive compression", "statement": "Compressing any list of unsigned integers, each below 2^60, and decompressing the result with the original element count returns exactly the original list; the compressed form never uses more 64-bit words than there are elements.", "quantifier": "every list length and every assignment of values below 2^60 (including runs of zeros of any length and position)", "why_tests_cant": "the encoder chooses among 16 packings depending on lookahead over the rest of the list; tests exercise a handful of lists out of an unbounded space", "anchors": ["src/util/Simple8bCode.h: Simple8bCode::encode, Simple8bCode::decode, SIMPLE8B_SELECTORS"]}
{"id": "C02", "title": "Text posting lists survive the on-disk index", "statement": "For every posting list (context ids in nondecreasing order, word ids, scores), what a text query reads back for that block is exactly the list that was written: the same contexts, words and scores in the same order, whatever order the frequency codebooks are built in.", "quantifier": "every posting list, every iteration order of the hash maps and every outcome of the unstable sort used to build the codebooks", "why_tests_cant": "hash-map order and list contents are unbounded; tests only see one order on small lists", "anchors": ["src/index/Index.Text.cpp: Index::writePostings, Index::createCodebooks, Index::readGapComprList, Index::readFreqComprList, Index::writeList"]}
{"id": "C03", "title": "Newline/backslash escaping is reversible and line-safe", "statement": "Escaping a vocabulary word produces text without a newline character, and unescaping that text returns the original word.", "quantifier": "every byte string", "why_tests_cant": "all byte strings, including arbitrary interleavings of backslashes, newlines and the letter n", "anchors": ["src/parser/RdfEscaping.cpp: escapeNewlinesAndBackslashes, unescapeNewlinesAndBackslashes"]}
{"id": "C04", "title": "Prefix compression of the vocabulary is lossless", "statement": "For every list of compression prefixes, expanding a compressed word returns the original word; and a vocabulary written to disk with a list of prefixes and loaded again (prefixes included) yields the same list of words.", "quantifier": "every word list and every prefix list, including prefixes that are prefixes of one another", "why_tests_cant": "depends on interaction of arbitrary prefix lists with arbitrary words, and of two nested encodings with a line-based file format", "anchors": ["src/index/Vocabulary.cpp: expandPrefix, compressPrefix, initializePrefixes, readFromFile, prefixCompressFile", "src/index/PrefixHeuristic.cpp: calculatePrefixes", "src/index/Index.cpp: createFromFile, readConfiguration"]}
{"id": "C05", "title": "Packed pattern storage returns what was stored", "statement": "Building the packed vector of predicate lists and then reading entry i returns exactly the i-th list given, for every list of lists; the stored form written to a file and read back is the same.", "quantifier": "every list of lists and every index below its length", "why_tests_cant": "offset arithmetic must be right for every combination of lengths, including empty lists", "anchors": ["src/global/Pattern.h: CompactStringVector::build, operator[], write, load"]}
{"id": "C06", "title": "The memory limit is never exceeded", "statement": "At any time, bytes currently handed out by the limited allocator plus bytes still available equal the configured limit; a request larger than what is left fails without changing anything.", "quantifier": "every sequence and interleaving of allocations, failures and deallocations by any number of threads sharing the limit, every limit", "why_tests_cant": "the guarantee is over all histories and schedules", "anchors": ["src/util/AllocatorWithLimit.h: AllocationMemoryLeft::decrease_if_enough_left_or_throw, increase, AllocatorWithLimit::allocate, deallocate"]}
{"id": "C07", "title": "The result cache respects its limits and never evicts pinned results", "statement": "After every operation, the unpinned part of the cache is empty or the cache is within both its entry-count limit and its total-size limit; entries inserted as pinned (or made pinned) stay retrievable with their value until everything is cleared or the key is erased.", "quantifier": "every sequence of insert, insert-pinned, lookup, make-pinned, erase, clear and limit changes, every size and score function", "why_tests_cant": "invariant over all histories; eviction order depends on access history", "anchors": ["src/util/Cache.h: FlexibleCache::insert, insertPinned, operator[], containsAndMakePinnedIfExists, erase, clearUnpinnedOnly, clearAll, shrinkToFit"]}
{"id": "C08", "title": "A cache lookup only returns what was inserted under that key", "statement": "If a lookup for a key returns a value, that value is the one most recently inserted under exactly that key; a key that was erased or cleared is not returned until inserted again.", "quantifier": "every sequence of cache operations", "why_tests_cant": "history property", "anchors": ["src/util/Cache.h: FlexibleCache::operator[], insert, insertPinned, erase, clearAll"]}
{"id": "C09", "title": "Each cached result is computed at most once at a time", "statement": "When several threads request the same key, at most one of them is computing it at any moment, a finished key is never recomputed while it is cached, and every request that completes normally returns the value of a completed computation for that key.", "quantifier": "every number of threads, every interleaving of their atomic steps, every outcome (success or exception) of each computation, every eviction pattern", "why_tests_cant": "schedules are unbounded; races show up only in rare interleavings", "anchors": ["src/util/ConcurrentCache.h: computeOnceImpl, ResultInProgress, moveFromInProgressToCache"]}
{"id": "C10", "title": "A failing computation does not block its key", "statement": "If the computation for a key throws, the requests waiting for it get an exception, the key is not stored, and a later request for it starts a new computation; no request waits forever while no computation for its key is running.", "quantifier": "every number of threads, every interleaving and every pattern of failures", "why_tests_cant": "schedules and failure points are unbounded", "anchors": ["src/util/ConcurrentCache.h: computeOnceImpl, ResultInProgress::abort, getResult"]}
{"id": "C11", "title": "The eviction queue yields entries in score order, each once", "statement": "Popping the priority queue returns an entry with minimal current score, every inserted and not-yet-removed entry is returned exactly once, and the reported size is the number of live entries, after any sequence of insertions, score updates and removals.", "quantifier": "every sequence of insert, updateKey, erase and pop", "why_tests_cant": "history property; lazily deleted duplicates only go wrong for particular update sequences", "anchors": ["src/util/PriorityQueue.h: HeapBasedPQ, TreeBasedPQ"]}
{"id": "C12", "title": "The merge join returns exactly the join", "statement": "For two tables sorted on their join columns, the join result contains each pair of rows with equal join values exactly once (with bag multiplicities) combined without the second join column, nothing else, and is sorted by the join column.", "quantifier": "every pair of sorted tables of any size and width, any join columns", "why_tests_cant": "unbounded tables; duplicates and skips interact in index arithmetic", "anchors": ["src/engine/Join.cpp: Join::join, addCombinedRowToIdTable"]}
{"id": "C13", "title": "The galloping join returns exactly the join", "statement": "When one input is so much larger than the other that the galloping algorithm is chosen, the result is the same as that of the ordinary merge join and no memory outside the tables is read.", "quantifier": "every pair of sorted tables, every size ratio", "why_tests_cant": "only triggered by size ratios above 1000; exponential search boundaries depend on data positions", "anchors": ["src/engine/Join.cpp: Join::doGallopInnerJoin"]}
{"id": "C14", "title": "The multi-column join returns exactly the join", "statement": "For tables sorted on their join columns, joining on several columns yields each matching pair exactly once with all columns of the left row followed by the non-join columns of the right row in their original order, and the reported variable-to-column assignment matches these columns.", "quantifier": "every pair of sorted tables, every number and choice of join columns below 32, every hash iteration order", "why_tests_cant": "unbounded tables and column sets; the column labels depend on hash iteration order", "anchors": ["src/engine/MultiColumnJoin.h: computeMultiColumnJoin", "src/engine/MultiColumnJoin.cpp: getVariableColumns"]}
{"id": "C15", "title": "OPTIONAL keeps every left row", "statement": "The optional join of two sorted tables returns each matching pair exactly once and each left row without partner exactly once, padded with the unbound value; nothing else.", "quantifier": "every pair of sorted tables, any join columns, either/both sides optional", "why_tests_cant": "unbounded tables; end-of-input handling depends on the positions of unmatched rows", "anchors": ["src/engine/OptionalJoin.cpp: optionalJoin, createOptionalResult"]}
{"id": "C16", "title": "MINUS removes exactly the rows with a partner", "statement": "The result of MINUS is the list of left rows, in their original order and with multiplicity, that agree with no right row on the shared columns; when no columns are shared nothing is removed.", "quantifier": "every pair of sorted tables, any number of shared columns", "why_tests_cant": "unbounded tables; duplicates interact with the two-pointer walk", "anchors": ["src/engine/Minus.cpp: computeMinus, isRowEqSkipFirst"]}
{"id": "C17", "title": "UNION keeps all rows of both sides", "statement": "The result of UNION is the rows of the left input followed by the rows of the right input, each with its values in the columns of the variables they belong to and the unbound value in columns of variables the input does not have; the result type reported for a column is the type of an input column that feeds it.", "quantifier": "every pair of tables, every overlap of variables", "why_tests_cant": "unbounded tables and column mappings; chunked copy boundary conditions", "anchors": ["src/engine/Union.cpp: computeUnion, getVariableColumns, computeColumnOrigins, computeResult"]}
{"id": "C18", "title": "DISTINCT removes all duplicates and nothing else", "statement": "For input sorted on the kept columns, the result contains, for each combination of values of the kept columns that occurs, exactly one row, which is a row of the input, in the input order.", "quantifier": "every sorted table and every choice of kept columns", "why_tests_cant": "unbounded tables; correctness relies on the sortedness of input", "anchors": ["src/engine/Engine.h: Engine::distinct", "src/engine/Distinct.cpp"]}
{"id": "C19", "title": "ORDER BY returns a sorted permutation", "statement": "The result of ORDER BY is a permutation of the input rows ordered by the given keys (ascending or descending per key); the comparison used is a strict weak ordering, so sorting is well defined.", "quantifier": "every table and every list of sort keys", "why_tests_cant": "sortedness and permutation for all tables; the strict-weak-order requirement is universally quantified over triples of rows", "anchors": ["src/engine/Comparators.h: OBComp", "src/engine/OrderBy.cpp", "src/engine/Engine.h: Engine::sort"]}
{"id": "C20", "title": "LIMIT and OFFSET select the right rows", "statement": "With LIMIT l and OFFSET o the exported rows are exactly the result rows with positions o, o+1, ..., o+l-1 that exist, in order.", "quantifier": "every table, every limit and offset representable in 64 bits", "why_tests_cant": "boundary at 2^64; all sizes", "anchors": ["src/engine/QueryExecutionTree.cpp: writeResultToStream, writeResultAsJson, writeTable, writeJsonTable", "src/engine/Server.cpp: composeResponseJson"]}
{"id": "C21", "title": "GROUP BY yields one row per group with correct aggregates", "statement": "For input sorted on the grouping columns the result has exactly one row per distinct combination of grouping values in order, and COUNT, COUNT DISTINCT, MIN, MAX, SUM and SAMPLE equal the aggregate over exactly the rows of that group.", "quantifier": "every sorted table and every choice of grouping columns, including the empty choice", "why_tests_cant": "group boundaries for every table; off-by-one errors only show in the first/last group", "anchors": ["src/engine/GroupBy.cpp: doGroupBy, processGroup"]}
{"id": "C22", "title": "FILTER keeps exactly the rows that satisfy the condition", "statement": "Filtering a column by =, !=, <, <=, >, >= against a value keeps exactly the rows for which the comparison holds, in order, and gives the same result whether or not the column is known to be sorted.", "quantifier": "every table, every column, every comparison and every value", "why_tests_cant": "the sorted and unsorted paths are different code; boundaries of binary search for every position", "anchors": ["src/engine/Filter.cpp: computeFilter, computeFilterRange, computeFilterFixedValue, computeResultFixedValue"]}
{"id": "C23", "title": "Comparing with a word that is not in the vocabulary is exact", "statement": "For a FILTER comparing a column of words to a constant word, translating the constant to an id bound and comparing ids keeps exactly the words that compare that way to the constant, also when the constant does not occur in the data.", "quantifier": "every sorted vocabulary and every constant word, for <, <=, >, >=", "why_tests_cant": "all vocabularies and all positions of an absent constant including before the first and after the last word", "anchors": ["src/index/Vocabulary.h: getValueIdForLT, getValueIdForLE, getValueIdForGT, getValueIdForGE", "src/engine/Filter.cpp: computeResultFixedValue"]}
{"id": "C24", "title": "Transitive property paths compute reachability", "statement": "For path+ the result contains the pair (a, b) exactly once for exactly those nodes a, b such that b is reachable from a by one or more edges; for a maximum length n exactly those reachable in at most n edges; fixed endpoints restrict the result accordingly; bound sides combine the pairs with the matching rows.", "quantifier": "every finite edge relation including cyclic ones, every length bound, all combinations of fixed, variable and bound sides", "why_tests_cant": "graphs are unbounded; search order determines which nodes are cut off by the length bound", "anchors": ["src/engine/TransitivePath.cpp: computeTransitivePath, computeTransitivePathLeftBound, computeTransitivePathRightBound"]}
{"id": "C25", "title": "The id table behaves like a list of rows", "statement": "After any sequence of append, insert range, erase range, resize, reserve, pop, clear and copy operations, the table has the number of rows and the row contents that the same operations give on a plain list of rows.", "quantifier": "every number of columns and every sequence of operations with arguments in range", "why_tests_cant": "capacity growth and memory moves happen at data-dependent moments", "anchors": ["src/engine/IdTable.h: IdTableImpl, IdTableTemplated::push_back, insert, erase, resize, reserve, clear, pop_back"]}
{"id": "C26", "title": "Scans with two fixed terms return exactly the matching triples", "statement": "Looking up (first key, second key) in a permutation returns exactly the third components of the indexed triples with these two keys, in order, whether or not the relation is stored with a block index, and never reads outside the relation's data.", "quantifier": "every set of triples, every key pair including absent ones, every block layout", "why_tests_cant": "block boundaries depend on data; absent keys hit boundary positions", "anchors": ["src/index/Index.cpp: writeRel, writeNonFunctionalRelation, scanNonFunctionalRelation, scanFunctionalRelation, getRhsForSingleLhs", "src/index/MetaDataTypes.cpp: getBlockStartAndNofBytesForLhs, getFollowBlockForLhs"]}
{"id": "C27", "title": "All permutations contain the same triples", "statement": "After index construction from any list of triples with repetitions, scanning any key in any of the built permutations returns exactly the distinct input triples having that key, each once, in sorted order.", "quantifier": "every finite list of triples, every key", "why_tests_cant": "all inputs; relation boundaries at change of key; first and last relation", "anchors": ["src/index/Index.cpp: createPermutationPairImpl, createPermutations, writeSwitchedRel", "src/index/Index.h: Index::scan", "src/index/StxxlSortFunctors.h"]}
{"id": "C28", "title": "Relation metadata fields do not disturb each other", "statement": "The packed per-relation metadata returns, for each field, the value last stored into it, independently of the other fields; element counts up to the documented maximum are exact.", "quantifier": "every value of every field within its documented range, every order of updates", "why_tests_cant": "bit-field interference must be excluded for all 2^64 words", "anchors": ["src/index/MetaDataTypes.h: FullRelationMetaData", "src/index/MetaDataTypes.cpp: setCol1LogMultiplicity, setCol2LogMultiplicity, getNofElements, isFunctional, hasBlocks"]}
{"id": "C29", "title": "Metadata survives serialisation", "statement": "Writing block metadata, relation metadata and text metadata to bytes and reading it back yields equal metadata; text lookup structures after reload behave as the ones at build time.", "quantifier": "every metadata value", "why_tests_cant": "unbounded number of blocks; classification of blocks happens only at reload", "anchors": ["src/index/MetaDataTypes.cpp: createFromByteBuffer, operator<<", "src/index/TextMetaData.cpp: createFromByteBuffer, existsTextBlockForEntityId, getBlockInfoByWordRange"]}
{"id": "C30", "title": "External vocabulary lookup finds a word iff it is there", "statement": "Looking up a word in the on-disk vocabulary succeeds with the position of the word if the word occurs and reports absence otherwise, without reading outside the vocabulary.", "quantifier": "every sorted list of words and every query word", "why_tests_cant": "binary search boundaries for all sizes and query positions", "anchors": ["src/index/ExternalVocabulary.cpp: binarySearchInVocab, operator[], buildFromVector", "src/index/ExternalVocabulary.h: getId"]}
{"id": "C31", "title": "Equal terms get equal ids, different terms different ids", "statement": "After merging partial vocabularies, two occurrences of a term anywhere in the input are mapped to the same id if and only if they are the same term, ids are consecutive from 0, and id order is the term order.", "quantifier": "every number of partial vocabularies and every content, including terms stored externally", "why_tests_cant": "duplicates across partial vocabularies occur only for inputs above the partition size", "anchors": ["src/index/VocabularyGeneratorImpl.h: mergeVocabulary, writeQueueWordsToIdVec, createInternalMapping, writeMappedIdsToExtVec", "src/index/Index.cpp: convertPartialToGlobalIds"]}
{"id": "C32", "title": "The predicate-pattern files describe the data", "statement": "After building the pattern data from the triples, the predicates reported for each subject (through its pattern or its explicit list) are exactly the distinct predicates of the triples with that subject (excluding internal language predicates).", "quantifier": "every list of triples sorted by subject, every limit on the number of patterns", "why_tests_cant": "the overflow list is only used with more patterns than the limit, which small tests never reach", "anchors": ["src/index/Index.cpp: createPatternsImpl, createFromOnDiskIndex"]}
{"id": "C33", "title": "Predicate counts equal the counts obtained by enumeration", "statement": "The counts returned for available predicates equal, for every predicate, the number of distinct subjects in the input that have this predicate; predicates without such subject are not listed; each predicate is listed once.", "quantifier": "every sorted input column, every pattern assignment, every hash iteration order", "why_tests_cant": "the result is computed through patterns, independently of enumeration; all combinations", "anchors": ["src/engine/CountAvailablePredicates.cpp: computePatternTrick, computePatternTrickAllEntities"]}
{"id": "C34", "title": "has-predicate scans return exactly the subject-predicate pairs", "statement": "A scan for subjects of a predicate, predicates of a subject, all pairs, or the predicates for the subjects of a subquery returns exactly the corresponding subject-predicate pairs, combined with every row of the subquery.", "quantifier": "every pattern assignment and every subquery result", "why_tests_cant": "subjects beyond the pattern tables and unsorted subquery rows occur only in special data", "anchors": ["src/engine/HasPredicateScan.cpp: computeFreeS, computeFreeO, computeFullScan, computeSubqueryS"]}
{"id": "C35", "title": "Intersecting two posting lists is exact", "statement": "Intersecting two context-sorted posting lists returns exactly the postings of the second list whose context occurs in the first, in order (or the common contexts with summed scores).", "quantifier": "every pair of sorted lists", "why_tests_cant": "unbounded lists with duplicates; result vectors may be non-empty on entry", "anchors": ["src/index/FTSAlgorithms.cpp: intersect, intersectTwoPostingLists, filterByRange", "src/index/Index.Text.cpp: getContextListForWords"]}
{"id": "C36", "title": "Intersecting k posting lists is exact", "statement": "The k-way intersection returns exactly the contexts that occur in all lists, each with the summed score; with an entity list, one output per entity posting of the last list in such a context.", "quantifier": "every k and every k sorted lists", "why_tests_cant": "round-robin pointer state; unbounded", "anchors": ["src/index/FTSAlgorithms.cpp: intersectKWay"]}
{"id": "C37", "title": "Top-k text results keep the best contexts", "statement": "Aggregating entity postings returns for each entity at most k contexts, those with highest score, together with the entity's aggregated score.", "quantifier": "every posting list, every k", "why_tests_cant": "selection under ties and with unsorted lists; unbounded", "anchors": ["src/index/FTSAlgorithms.cpp: aggScoresAndTakeTopKContexts, getTopKByScores"]}
{"id": "C38", "title": "VALUES rows are kept", "statement": "A VALUES clause contributes one row for each of its rows whose words all occur in the data, with unbound entries in place of UNDEF; dropping of variables and rows happens only where documented (variables and rows that are entirely UNDEF).", "quantifier": "every list of variables and value rows", "why_tests_cant": "erasure by index while iterating; unbounded", "anchors": ["src/engine/Values.cpp: sanitizeValues, writeValues"]}
{"id": "C39", "title": "BIND adds a column and changes nothing else", "statement": "BIND leaves all existing columns and the number and order of rows unchanged and adds one column with the value of the expression for each row.", "quantifier": "every table and each supported expression kind", "why_tests_cant": "all tables", "anchors": ["src/engine/Bind.cpp: computeResult, computeRenameBind, computeConstantBind, computeBinaryOperationBind"]}
{"id": "C40", "title": "Equal cache keys imply equal results", "statement": "Two operations with the same cache key compute the same table, so that answering one with the cached result of the other is correct.", "quantifier": "every pair of operations constructible by the planner, every index content", "why_tests_cant": "quantifies over all pairs of operations; a collision needs two particular queries in the same session", "anchors": ["src/engine/Operation.cpp: Operation::getResult", "src/engine/Distinct.cpp: asString", "src/engine/GroupBy.cpp: asString", "src/engine/Minus.cpp: asString", "src/engine/OptionalJoin.cpp: asString", "src/engine/TransitivePath.cpp: asString", "src/engine/HasPredicateScan.cpp: asString"]}
{"id": "C41", "title": "The parsing pipeline loses, duplicates and reorders nothing", "statement": "The values delivered by the batched pipeline are exactly the transformed values of the source, in source order, each once, ending when the source ends.", "quantifier": "every source length, every batch size above 0, every number of stages and degree of parallelism, every scheduling of the asynchronous stages", "why_tests_cant": "batch boundaries and schedules are unbounded", "anchors": ["src/util/BatchedPipeline.h: Batcher, BatchedPipeline, BatchExtractor::getNextValue, getBatchRange", "src/parser/ParallelParseBuffer.h: ParallelParseBuffer, ParserBatcher"]}
{"id": "C42", "title": "Memory-mapped vectors persist their content, also across a crash", "statement": "After close and reopen a memory-mapped vector has exactly its elements; if the process dies at any point instead, reopening either is refused or gives a vector whose elements are elements written before at the same positions.", "quantifier": "every sequence of operations, every element size, every crash point", "why_tests_cant": "all crash points and histories", "anchors": ["src/util/MmapVectorImpl.h: writeMetaDataToEnd, readMetaDataFromEnd, adaptCapacity, push_back, resize, close"]}
{"id": "C43", "title": "Buffered vectors behave like plain vectors", "statement": "A vector that moves from memory to a file at a threshold returns, after any sequence of push_back and clear, the same elements as a plain vector.", "quantifier": "every threshold and every sequence of operations", "why_tests_cant": "history property; the switch happens once at a data-dependent point", "anchors": ["src/util/BufferedVector.h: push_back, clear, operator[], size"]}
{"id": "C44", "title": "URL decoding inverts URL encoding and request parameters are recovered", "statement": "Percent-decoding the percent-encoded form of a byte string returns the string; parsing a request with given parameters returns exactly these parameters and values.", "quantifier": "every byte string and every list of distinct parameter names", "why_tests_cant": "all byte strings including encoded delimiters at the end of input", "anchors": ["src/util/StringUtils.h: decodeUrl", "src/engine/Server.cpp: parseHttpRequest"]}
{"id": "C45", "title": "Numeric literals are ordered by value in their internal form", "statement": "The internal string form of two numeric values compares (as byte strings) the way their values compare, and converting back gives the original value.", "quantifier": "all integer and decimal literals within the documented digit limits", "why_tests_cant": "order must hold for all pairs of numbers across signs and exponents", "anchors": ["src/util/Conversions.h: convertFloatStringToIndexWord, convertIndexWordToFloat, getBase10ComplementOfIntegerString"]}
{"id": "C46", "title": "Timed-out or failed operations never leave a result in the cache", "statement": "If an operation throws or exceeds its time limit, no result is stored under its cache key and the requester gets an exception; a result that is returned was completely computed.", "quantifier": "every point at which the timeout or exception happens, every operation tree", "why_tests_cant": "fault points are unbounded", "anchors": ["src/engine/Operation.cpp: Operation::getResult", "src/util/ConcurrentCache.h: computeOnceImpl", "src/util/Timer.h: TimeoutTimer"]}
{"id": "C47", "title": "Property paths are parsed with the right structure", "statement": "Parsing the text of a property path built from IRIs with sequence, alternative, inverse and repetition operators, with parentheses, returns that path; the flag telling that a path may be empty is set exactly for paths that match the empty path.", "quantifier": "every property path expression", "why_tests_cant": "grammar recursion: expressions of arbitrary depth", "anchors": ["src/parser/PropertyPathParser.cpp: tokenize, path, pathSequence, pathEltOrInverse, pathElt, pathPrimary", "src/parser/ParsedQuery.cpp: PropertyPath::computeCanBeNull"]}
{"id": "C48", "title": "Splitting and joining strings are inverse", "statement": "Splitting a string at a separator and joining the parts with the same separator returns the string; no part contains the separator; finding the end of a literal returns the first unescaped quote.", "quantifier": "every string and separator", "why_tests_cant": "all strings, including leading, trailing and adjacent separators", "anchors": ["src/util/StringUtils.h: split, join, findLiteralEnd, strip"]}
{"id": "C49", "title": "Prefix range lookup returns exactly the words with the prefix", "statement": "The id range for a prefix contains exactly the ids of the vocabulary words that start with this prefix.", "quantifier": "every sorted vocabulary and every prefix", "why_tests_cant": "all vocabularies; prefix at either end of the alphabet", "anchors": ["src/index/Vocabulary.cpp: prefix_range, getIdRangeForFullTextPrefix"]}
{"id": "C50", "title": "Two-column joins keep multiplicities", "statement": "Joining on two columns with a two-column relation returns exactly the rows (with multiplicities) of the join.", "quantifier": "every pair of sorted tables", "why_tests_cant": "unbounded tables with duplicates", "anchors": ["src/engine/TwoColumnJoin.cpp", "src/engine/Engine.h: Engine::filter"]}
{"id": "C51", "title": "Document excerpts are the stored documents", "statement": "The text shown for a record id is exactly the text of the document it belongs to, i.e. of the first line of the documents file whose largest record id is not smaller, and it is empty for documents without text and for rows without a record.", "quantifier": "every documents file with increasing ids, every record id", "why_tests_cant": "gaps between ids and the last document are boundary cases for all files", "anchors": ["src/index/Index.Text.cpp: buildDocsDB", "src/index/DocsDB.cpp: getTextExcerpt"]}
{"id": "C52", "title": "Escapes in literals, IRIs and prefixed names denote the right characters", "statement": "Normalising an RDF literal, an IRI or the local part of a prefixed name replaces each escape sequence by the characters it denotes, leaves everything else unchanged, and rejects text with an escape that is not allowed there.", "quantifier": "every byte string given as literal, IRI or local name", "why_tests_cant": "unbounded inputs; every combination and position of escapes counts", "anchors": ["src/parser/RdfEscaping.cpp: normalizeRDFLiteral, unescapeIriref, unescapePrefixedIri"]}
{"id": "C53", "title": "Pinned requests are honoured", "statement": "When several threads request the same key and one of them asks for the result to be pinned, the result is stored as a pinned entry, whichever thread computes it; it stays pinned until the cache is cleared completely.", "quantifier": "every number of threads, every interleaving, every mixture of pinned and unpinned requests, every eviction pattern", "why_tests_cant": "depends on the order in which requests arrive during a computation", "anchors": ["src/util/ConcurrentCache.h: computeOnceImpl, moveFromInProgressToCache", "src/util/Cache.h: insertPinned, containsAndMakePinnedIfExists"]}
{"id": "C54", "title": "Declared sort orders are true", "statement": "The columns an operation declares its result to be sorted on (resultSortedOn) are columns its result is in fact lexicographically sorted on, so that the planner may leave out sorting before joins, GROUP BY, DISTINCT and ORDER BY.", "quantifier": "every input table and every parameter of the operation", "why_tests_cant": "a wrong declaration only shows when a plan relies on it; needs all tables", "anchors": ["src/engine/OrderBy.cpp: resultSortedOn", "src/engine/Sort.h", "src/engine/Join.cpp: resultSortedOn", "src/engine/MultiColumnJoin.cpp", "src/engine/OptionalJoin.cpp", "src/engine/Minus.cpp"]}
{"id": "C55", "title": "Generated strings survive later operations", "statement": "A string that GROUP_CONCAT generated is shown in the final result of the query whatever operations (DISTINCT, ORDER BY, FILTER, joins, MINUS, UNION, ...) are applied to the row that contains it.", "quantifier": "every result with generated strings, every later operation", "why_tests_cant": "depends on the composition of operations; every composition has to preserve the local vocabulary", "anchors": ["src/engine/ResultTable.h: _localVocab, idToOptionalString", "src/engine/Distinct.cpp", "src/engine/OrderBy.cpp", "src/engine/Sort.cpp", "src/engine/Join.cpp", "src/engine/Minus.cpp"]}
{"id": "C56", "title": "All HAVING conditions apply", "statement": "A query with several HAVING conditions returns exactly the groups that meet all of them.", "quantifier": "every list of conditions and every table of groups", "why_tests_cant": "unbounded number of conditions and rows", "anchors": ["src/engine/QueryPlanner.cpp: getHavingRow", "src/parser/SparqlParser.cpp: parseSolutionModifiers"]}
{"id": "C57", "title": "Text queries with several entities return the tuples that occur together", "statement": "A text query with several entity variables returns exactly the tuples of entities that occur together in a matching context, each with its k best contexts; with a subquery for one variable, exactly the tuples whose entity is in the subquery's result, combined with its rows.", "quantifier": "every posting list, every number of variables, every k, every subquery result", "why_tests_cant": "the cross product is enumerated by index arithmetic for any number of variables; rows with unwritten cells look plausible in a test", "anchors": ["src/index/FTSAlgorithms.cpp: multVarsAggScoresAndTakeTopKContexts, oneVarFilterAggScoresAndTakeTopKContexts, multVarsFilterAggScoresAndTakeTopKContexts"]}
{"id": "C58", "title": "Every word of the input is found under its own id", "statement": "Looking up a term that occurs in the data gives the id under which the index builder stored it, and looking up any other term reports that it does not occur; the same holds for the words of the text.", "quantifier": "every input, every split into partial vocabularies, every choice of words kept on disk, every term of a query", "why_tests_cant": "the lookup is a binary search with a comparison other than the one used for sorting; it fails only for words that are equal at one level and different at another", "anchors": ["src/index/Vocabulary.cpp: getId, lower_bound, createFromSet", "src/index/StringSortComparator.h: TripleComponentComparator, SimpleStringComparator", "src/index/Index.cpp: tripleToInternalRepresentation"]}
{"id": "C59", "title": "A filter with a regular expression or a constant keeps the rows that meet the condition as written", "statement": "FILTER regex(?x, \"...\") keeps exactly the rows whose term is matched by the regular expression, whether or not the engine turns it into a prefix search, and FILTER(?x = c), FILTER(?x < c) compare with the constant c as it is written in the query.", "quantifier": "every regular expression or constant, every vocabulary, every table", "why_tests_cant": "the parser rewrites regular expressions into prefixes and strips quotes from constants; the rewriting must preserve the meaning for every expression", "anchors": ["src/parser/SparqlParser.cpp: parseRegexFilter, parseFilter (function prefix)", "src/engine/Filter.cpp: PREFIX, REGEX, computeResultFixedValue"]}
{"id": "C60", "title": "Dates are ordered by time in their internal form and shown as they were written", "statement": "The internal string forms of two date literals compare the way the moments they denote compare, FILTER comparisons with dates keep the rows with earlier, later or equal dates, and results show a date literal as it was written, with its type.", "quantifier": "all literals of types xsd:dateTime, xsd:date, xsd:gYear, xsd:gYearMonth, with negative years, time zones and fractions of seconds", "why_tests_cant": "order and round trip must hold for all pairs of dates, across signs and lengths of years", "anchors": ["src/util/Conversions.h: normalizeDate, convertDateToIndexWord, convertIndexWordToDate, removeLeadingZeros, convertValueLiteralToIndexWord, convertIndexWordToValueLiteral"]}
{"id": "C61", "title": "A triple with a property path matches exactly the pairs of nodes that the path connects", "statement": "The graph pattern into which the planner turns ?x path ?y has a solution with ?x = u and ?y = v exactly if the path connects u with v in the graph, for sequences, alternatives, inverse paths and repetitions in any combination; paths that can be empty are refused with an error.", "quantifier": "every property path, every graph, every pair of nodes, any internal variables already in use", "why_tests_cant": "the combinations of optional factors, unions and fresh variables grow without bound with the path, and the meaning must hold in every graph", "anchors": ["src/engine/QueryPlanner.cpp: seedFromPropertyPathTriple, seedFromPropertyPath, seedFromSequence, seedFromAlternative, seedFromTransitive, seedFromTransitiveMin, seedFromTransitiveMax, seedFromInverse, seedFromIri, uniteGraphPatterns"]}
{"id": "C62", "title": "A Turtle document is read as exactly the triples it denotes", "statement": "From the text of a Turtle document the parser produces exactly the triples that the document denotes according to the Turtle recommendation, in order, with different fresh names for different anonymous nodes, and reads the document to its end; on any text it terminates without undefined behaviour.", "quantifier": "every syntax tree, every layout of its tokens with white space and comments, every text (termination)", "why_tests_cant": "documents nest objects, lists and brackets without bound, and each token can be followed by any other token and any white space; a document that is silently given up looks like a short document", "anchors": ["src/parser/TurtleParser.cpp: turtleDoc, statement, directive, prefixID, base, sparqlPrefix, triples, predicateObjectList, objectList, verb, subject, object, literal, blankNodePropertyList, numericLiteral, rdfLiteral, stringParse, iri, pnameNS, pnameLN, blankNode", "src/parser/Tokenizer.h: TurtleToken", "src/parser/Tokenizer.cpp: skipWhitespaceAndComments, getNextToken"]}
{"id": "C63", "title": "A Turtle file gives the triples of its document however it is cut into blocks", "statement": "The triples returned by reading a Turtle file block by block are those of the document, each as often as it is stated, for every size of the blocks and of the batches of triples; a statement read from the available beginning of the file is the one read from the whole file; every call of getLine terminates.", "quantifier": "every document of the fragment of C62, every cut into non-empty blocks, every batch size; every text for stability and termination", "why_tests_cant": "a block can end at any character of any token, and the effect depends on which statements are read a second time; files have millions of such positions", "anchors": ["src/parser/TurtleParser.cpp: backupState, resetStateAndRead, TurtleStreamParser::initialize, TurtleStreamParser::getLine, TurtleMmapParser::getLine", "src/parser/TurtleParser.h: TurtleParserBackupState", "src/parser/ParallelBuffer.h: getNextBlock"]}
{"id": "C64", "title": "N-Triples and tab-separated files are read line by line as the triples they state", "statement": "Every line of an N-Triples file that states a triple is read as exactly this triple, every line of a tab-separated file as its first three fields, and a file gives the triples of its lines in order.", "quantifier": "every line, with every choice of terms and white space, and every number of lines", "why_tests_cant": "terms and white space are unbounded, and a literal that is cut short or a line that is read differently leaves a plausible triple behind", "anchors": ["src/parser/NTriplesParser.cpp: getLine", "src/parser/TsvParser.cpp: getLine"]}
{"id": "C65", "title": "Whatever plan the query planner chooses, it returns the answers of the group of patterns", "statement": "For a group of joined patterns with filters, every plan that the dynamic programming of the planner leaves in the last row of its table returns, when it is executed, exactly the join of the solutions of the patterns (with multiplicities) restricted by the filters; and a plan is found.", "quantifier": "every number of patterns, alternatives and filters, every cost model, every iteration order of hash maps, every order of equal strings, all data", "why_tests_cant": "the planner chooses among exponentially many plans depending on costs, string order and hash order; tests run the plan that happens to be chosen for some data", "anchors": ["src/engine/QueryPlanner.cpp: fillDpTab, merge, createJoinCandidates, connected, getJoinColumns, applyFiltersIfPossible, seedWithScansAndText", "src/engine/Join.cpp: constructor, getVariableColumns, resultSortedOn, computeResultForJoinWithFullScanDummy", "src/engine/TwoColumnJoin.cpp", "src/engine/MultiColumnJoin.cpp: constructor, getVariableColumns"]}
{"id": "C66", "title": "Whatever plan the planner chooses for a group with OPTIONAL, MINUS, UNION, nested groups, BIND and filters, it returns the solutions of the group", "statement": "Every plan that QueryPlanner::optimize returns for a group graph pattern with triples, OPTIONAL, MINUS, UNION, nested groups, BIND (nested to any depth) and filters at every level returns, when it is executed, exactly the solutions that SPARQL defines for the group, with multiplicities.", "quantifier": "every nesting of groups, every cost model, every iteration order of hash maps, every order of equal strings, all data", "why_tests_cant": "the plan depends on costs, string order and hash order, and the queries are nested to any depth; tests run single plans on single queries", "anchors": ["src/engine/QueryPlanner.cpp: optimize, joinCandidates, optimizeCommutativ, optionalJoin, minus, createJoinCandidates, applyFiltersIfPossible, getJoinColumns", "src/engine/OptionalJoin.cpp: constructor, getVariableColumns, resultSortedOn", "src/engine/Minus.cpp", "src/engine/Bind.cpp: getVariableColumns, resultSortedOn", "src/engine/OrderBy.cpp", "src/engine/Union.cpp"]}
{"id": "C67", "title": "A query text is cut into the tokens it consists of, whatever its layout", "statement": "The lexer returns, for a query text made of keywords (in any spelling), variables, IRIs, prefixed names, strings, numbers and symbols with any white space and comments between them, exactly these tokens in this order; strings by the value they stand for.", "quantifier": "every sequence of tokens, every spelling and layout, every length of names and strings", "why_tests_cant": "which regular expression wins at a position depends on everything before it in the list and on what follows the token; tests only try some neighbours", "anchors": ["src/parser/SparqlLexer.cpp:14-163", "src/parser/SparqlLexer.h"]}
{"id": "C68", "title": "A query text is parsed into the query it stands for", "statement": "Parsing the text of a SELECT query returns its prefixes, selected variables and aggregates, its graph pattern (triples with property paths, filters, OPTIONAL, MINUS, UNION, subqueries, BIND, VALUES, nested to any depth and in their order) and its solution modifiers, whatever the spelling of keywords and the layout of the text.", "quantifier": "every query of the supported language, every nesting depth and length, every layout", "why_tests_cant": "a recursive descent parser with one token of lookahead, shared state for the last subject and predicate and optional dots: whether a construct is read correctly depends on everything around it", "anchors": ["src/parser/SparqlParser.cpp:20-491", "src/parser/SparqlParser.cpp:634-1064", "src/parser/SparqlLexer.cpp:165-225", "src/parser/ParsedQuery.h:97-400"]}
{"id": "C69", "title": "Prefixed names in a query stand for the IRIs their prefixes declare", "statement": "Before a query is planned, every prefixed name in it (in triples, property paths, language-tagged predicates, types of literals, filters, BIND, VALUES, subqueries and nested groups) is replaced by the IRI made from the last declaration of its prefix and the unescaped local name; everything else in the query stays as it is.", "quantifier": "every parsed query, every list of declarations, every nesting depth", "why_tests_cant": "names are recognised in plain strings by looking for colons and carets: whether a string is changed depends on its content and on all declarations, and each place of a query in which a name can stand must be visited", "anchors": ["src/parser/ParsedQuery.cpp:249-391", "src/util/Conversions.h:650-661", "src/parser/RdfEscaping.cpp"]}
{"id": "C70", "title": "Queries for the available predicates are answered like any other query", "statement": "If a query that groups by ?p and counts is answered from the patterns of the index instead of joining the triple `?s ql:has-predicate ?p`, its rows are the predicates with the number of solutions of the query for them, restricted by all its filters and HAVING conditions.", "quantifier": "every parsed query for which the shortcut is chosen (any nesting of OPTIONAL, UNION, MINUS, BIND, VALUES and subqueries), every data set, every meaning of filters and expressions that depends on their variables only", "why_tests_cant": "the shortcut takes a triple out of the middle of a query and applies it last; that this does not change the solutions depends on every other part of the query", "anchors": ["src/engine/QueryPlanner.cpp:437-684", "src/engine/QueryPlanner.cpp:886-967", "src/engine/CountAvailablePredicates.cpp:135-176"]}
{"id": "C71", "title": "A request gets the answer to its query, and no request stops the server", "statement": "However the bytes of a request arrive, a request for a query gets a response with status 200 whose body is what executing the query returns in the requested format, or a JSON text with the query and the error; a request for a file gets one of the three files of the user interface or status 404; everything else gets status 400. No request ends the server.", "quantifier": "every sequence of chunks, every request line, every behaviour of the rest of the server (query execution as an arbitrary function that returns or throws), every content of the files", "why_tests_cant": "requests come from anybody on the network; tests cannot try every byte sequence, every split into chunks and every behaviour of the query execution", "anchors": ["src/engine/Server.cpp:60-366", "src/engine/Server.cpp:430-485", "src/util/Socket.h:126-196", "third_party json.hpp dump_escaped:15813-16052"]}
{"id": "C72", "title": "A client can read the rows of the result from the response", "statement": "The text of a JSON response is JSON; its member `res` contains exactly the rows that LIMIT, OFFSET and the bound of the server select, in order, with the values of the selected variables in the order of the selection and null for unbound ones. From CSV and TSV responses the same rows can be read. Errors are JSON, too.", "quantifier": "every result (rows, columns, kinds of columns, vocabulary, local vocabulary), every selection, every LIMIT and OFFSET, every query text, every error text", "why_tests_cant": "values are arbitrary texts (quotation marks, newlines, bytes that are not UTF-8, separators); a test tries some of them, the claim is about reading back every table", "anchors": ["src/engine/Server.cpp:369-444", "src/engine/QueryExecutionTree.cpp:88-147", "src/engine/QueryExecutionTree.cpp:200-311", "src/engine/ResultTable.h:80-101", "third_party/json/nlohmann/json.hpp:15534-15799"]}
{"id": "C73", "title": "A text query for a word finds exactly the text records that contain it", "statement": "After the text index has been built from a context file, a query for a word returns exactly the records that contain the word, each once and in ascending order, with the total score of the word in the record; a query for a prefix those of all words with the prefix, a query for an entity those that contain the entity; a query for entities with one or two words returns exactly the entities of the records that contain all words.", "quantifier": "every text (words, entities, records and scores), every vocabulary, every choice of codebooks, every order of hash maps, every term", "why_tests_cant": "the answer depends on the boundaries of the blocks, on which words share a block, on which entities occur in the text and on the sizes of both vocabularies; a test has one small text", "anchors": ["src/index/Index.Text.cpp:14-28", "src/index/Index.Text.cpp:95-305", "src/index/Index.Text.cpp:390-442", "src/index/Index.Text.cpp:573-692", "src/index/Index.Text.cpp:797-872", "src/index/StxxlSortFunctors.h:147-166", "src/index/TextMetaData.cpp"]}
{"id": "C74", "title": "A context file is read as the words, entities, records and scores it states", "statement": "Each line of a context file (text, entity flag, record, score, separated by tabulators) is read as exactly one posting with these values, in the order of the file, words in lower case; together with C73, a query for a word finds exactly the records for which the file has a line with this word.", "quantifier": "every list of entries without tabulators and line feeds in the text, every lower-casing, every query term", "why_tests_cant": "positions are found with offsets from tabulators and may wrap around; lines may have any lengths and digits; malformed lines are not rejected in a release build", "anchors": ["src/parser/ContextFileParser.cpp:19-45", "src/index/Index.Text.cpp:95-190"]}
{"id": "C75", "title": "A text query returns for every choice of entities the best text records with the words and the entities", "statement": "For the triples of a text record (ql:contains-word, ql:contains-entity) the planned text operation returns, read with the columns it announces, for every tuple of entities the best records (up to the limit) that contain all words and all entities of the tuple, and nothing else; with a filter it returns the join of these with the filter.", "quantifier": "every text, every set of triples with plain words, every filter table, every limit, every hash iteration order, every choice of the entity list", "why_tests_cant": "needs the whole pipeline from the context file to the rows of the operation, with planner, columns and hash iteration orders; unit tests use hand-made lists", "anchors": ["src/engine/QueryPlanner.cpp:2495-2536", "src/engine/TextOperationWithoutFilter.cpp:30-108", "src/engine/TextOperationWithFilter.cpp:13-105", "src/index/Index.Text.cpp:533-793"]}
{"id": "C76", "title": "The plans for a triple pattern return its solutions from the index, and groups of them return the solutions of the group", "statement": "Every index scan that is considered for a triple pattern returns exactly the solutions of the pattern over the indexed triples, each once, in the order and the columns it declares; for a tree-shaped group of patterns and filters every plan that is chosen returns exactly the solutions of the basic graph pattern that satisfy the filters.", "quantifier": "every list of triples, every vocabulary, every pattern (all combinations of constants and variables), every tree-shaped group, every cost function and hash order", "why_tests_cant": "needs all permutations of arbitrary data together with all plans of all groups; tests look at a few plans of fixed queries", "anchors": ["src/engine/QueryPlanner.cpp:1154-1476", "src/engine/IndexScan.cpp:76-311", "src/engine/Join.cpp:242-314", "src/index/Index.h:397-467"]}
{"id": "C77", "title": "The prefixes for the compression of the vocabulary are well defined, worth their codes and safe", "statement": "For every vocabulary the computation of the compression prefixes ends without undefined behaviour, returns at most the wanted number of different prefixes of words, each of which saves the most characters in addition to those before it; the number of saved characters that it reports is really saved; and with these prefixes the vocabulary is written and loaded again without change.", "quantifier": "every list of words, every number of prefixes and code length, every order of insertions into the prefix tree and every start point of the search", "why_tests_cant": "a property of all orders of insertions into a pointer structure and of a greedy choice over all sets of prefixes; tests compare the result for a few words", "anchors": ["src/index/PrefixHeuristic.cpp:21-232", "src/index/PrefixHeuristic.h:55-160", "src/index/Index.cpp:100-115, 233-241", "src/index/MetaDataConverter.cpp:222-228", "src/util/StringUtils.h:212-222"]}
{"id": "C78", "title": "Answers in terms of the input: from the triples of the parser to the terms shown", "statement": "For every list of triples that the parser delivers, whatever the division into partial vocabularies and the scheduling of the index builder, a query of triple patterns and filters returns rows which, shown as terms, are exactly the solutions of the patterns in these triples, each once.", "quantifier": "every input, size of the partial vocabularies, assignment of triples to threads, tie-breaking of sorts and merges, every query in the shape of a tree and every plan that the dynamic programming may choose", "why_tests_cant": "the statement spans vocabulary, permutations, planning, execution and the way back to terms; tests run a few queries on one index", "anchors": ["src/index/Index.cpp:62-125, 139-262, 1393-1418", "src/parser/ParallelParseBuffer.h:26-61", "src/index/IndexBuilderTypes.h:123-148", "src/index/Index.h:183-184, 335-447", "src/index/Vocabulary.cpp:155-217, 370-381, 427-439", "src/engine/QueryPlanner.cpp:1154-1560"]}
{"id": "C79", "title": "From the texts of data and query to the text of the response", "statement": "A client that sends the text of a query of triples and comparisons of variables, with selected variables, prefixes, DISTINCT, ORDER BY, LIMIT and OFFSET, reads from the JSON response exactly the solutions of the query over the triples of the file from which the index was built, each once (with DISTINCT one for each combination of the selected values), in the order of the keys, cut by OFFSET, LIMIT and the number of rows it asked for; from the export with commas or tabs it reads the same solutions, cut by OFFSET and LIMIT only.", "quantifier": "every file of N-Triples, every execution of the index builder, every query of triples in the shape of a tree and filters that compare their variables, in every spelling, every plan that the planner may choose, every request in which the query is sent", "why_tests_cant": "the statement spans both parsers, the index, the planner, the execution, the export and the HTTP server; tests check a few queries against one index", "anchors": ["src/engine/Server.cpp:110-260, 369-408", "src/parser/NTriplesParser.cpp", "src/parser/SparqlParser.cpp", "src/parser/ParsedQuery.cpp", "src/engine/QueryPlanner.cpp:37-104, 405-436, 806-881, 1038-1092, 1154-1560, 2159-2272", "src/engine/Filter.cpp:134-265", "src/engine/QueryExecutionTree.cpp:60-260", "src/index/Index.cpp:62-125, 139-262"]}
{"id": "C80", "title": "Clients read the counts and the smallest and largest values of groups from the response", "statement": "A client that sends the text of a query of triples and comparisons with GROUP BY and COUNT, MIN or MAX, with or without DISTINCT, and with HAVING, reads from the JSON response one row for each group of solutions over the triples of the file with the same values of the variables of GROUP BY for which the condition of HAVING holds, with the number of solutions (or of different values) in the group, and with the smallest or largest values of variables in the group, in the order in which ORDER BY sorts terms, in the order of the keys of ORDER BY, cut by OFFSET, LIMIT and the number of rows it asked for.", "quantifier": "every file of N-Triples, every execution of the index builder, every query of triples in the shape of a tree with comparisons in every spelling, every plan that the planner may choose, every request in which the query is sent", "why_tests_cant": "the results depend on the whole way from the parser of the file to the export: on the order of the input of GroupBy, the columns that are given to aggregates by name, and the types of the columns; tests check a few queries against one index", "anchors": ["src/engine/Server.cpp:201-238", "src/engine/QueryPlanner.cpp:37-104, 970-990, 993-1035", "src/engine/Filter.cpp:619-780", "src/engine/GroupBy.cpp:16-30, 686-824", "src/engine/QueryExecutionTree.cpp:60-260", "src/parser/SparqlParser.cpp"]}
{"id": "C81", "title": "The run time information in a response describes the executed plan", "statement": "The run time information that a client finds in a JSON response shows the operations of the plan that was executed, each with the number of rows and columns of its result and the name of the variable of every column; the time of every operation itself is not negative, and together with the times of the inputs of a computed operation it adds up to the total time; the details of a result from the cache say how long its computation took.", "quantifier": "every sequence of queries, every plan, every content of the cache and every way in which the cache drops entries, every duration of the operations, every iteration order of the maps of variables", "why_tests_cant": "the tree is put together from objects that are copied into the cache and out of it by later queries, and the names are written through an index without a check; tests look at one plan with an empty cache", "anchors": ["src/engine/RuntimeInformation.h:89-128, 163-176", "src/engine/Operation.h:160-193", "src/engine/Operation.cpp:59-114", "src/engine/Server.cpp:369-408"]}
{"id": "C82", "title": "A query is aborted because of its time limit exactly when the limit has passed", "statement": "If a client gives a number of seconds as time limit, a query that is aborted by a check of the timer has used more than that time since it was started, and no operation hands out a computed result after that time; a loop that counts its operations stops before it counts as many operations as are allowed between two checks; without a limit no check aborts a query. The timers measure the time between start and stop.", "quantifier": "every limit, every sequence of uses of the shared timer by operations and threads, all readings of the clock, every number of operations counted per call", "why_tests_cant": "the outcome depends on readings of the clock at points that tests do not control, and every check stops and restarts the shared timer, so errors add up over long sequences of checks", "anchors": ["src/util/Timer.h:43-101, 116-186", "src/engine/Server.cpp:175-213", "src/engine/Operation.h:134-155", "src/engine/Operation.cpp:91-109, 147-151"]}
{"id": "C83", "title": "Servers start whatever the size of the index, and sorts are cancelled only if the time left is short for their size", "statement": "A server that is started for an index gets an estimate of the time for sorting tables of any size: the time of a closest measured sample, scaled by the number of rows and the square root of the number of columns. A sort is cancelled exactly if this estimate is more than three times the time that is left; without a time limit, and for empty tables, no sort is cancelled.", "quantifier": "every number of triples, every machine (times of samples, samples that do not fit into memory), every number of rows and columns, every state of the timer", "why_tests_cant": "the estimates depend on the machine and on the size of the index; the unit test passes the largest number as limit and so never reaches the case of small indexes", "anchors": ["src/engine/SortPerformanceEstimator.cpp:46-165", "src/engine/SortPerformanceEstimator.h:50-65", "src/engine/Server.cpp:40-42", "src/engine/Sort.cpp:54-69", "src/engine/OrderBy.cpp:81-94"]}
{"id": "C84", "title": "Converting the meta data of a permutation keeps all relations and their meta data", "statement": "Converting a permutation from meta data in a hash map to meta data in an mmapped vector, or back, gives a file that begins with the same relations and from which exactly the same relations with the same meta data and block meta data are read, with the same name, the same number of triples and the same statistics; the optional verification passes, and passes only if both forms have the same entries.", "quantifier": "every sequence of added relations, every order in which the hash maps are iterated, every file, with and without verification", "why_tests_cant": "the order of the entries of a hash map is arbitrary, ids may have gaps of any size that the vector must fill, and files longer than the buffer of 1 GB are not covered by unit tests", "anchors": ["src/index/MetaDataConverter.cpp:19-172", "src/index/IndexMetaData.h:173-175"]}
{"id": "C85", "title": "Adding patterns to an existing index sees every triple of the permutation once and then ends", "statement": "The iteration over a permutation that is used to add patterns to an existing index hands out every triple of every relation exactly once, in the order of the meta data and of the file, and then reports that it is at its end.", "quantifier": "every permutation file and meta data with any number of relations of any sizes at any places of the file", "why_tests_cant": "reading behind the last relation is undefined behaviour that usually goes unnoticed because the mapped memory is longer than the vector; tests cannot rule it out", "anchors": ["src/index/MetaDataIterator.h:12-58", "src/index/Index.cpp:525-535, 584", "src/util/File.h:196-218"]}
{"id": "C86", "title": "A server reads the configuration that the index builder wrote, also after the conversion of an old index", "statement": "A server that loads an index gets from its configuration the prefixes with which the vocabulary was compressed and whether literals are external. The converter for old indexes leaves files, after the renaming it asks for, that a server reads with the prefixes of the old index, and it accepts every index that a server reads.", "quantifier": "every list of prefixes, every setting, every configuration of an old index, every files left by earlier builds", "why_tests_cant": "the writers and the reader of the configuration are in different programs of different versions; no test runs the converter", "anchors": ["src/index/Index.cpp:66, 99-125, 1331-1391", "src/index/MetaDataConverter.cpp:175-233"]}

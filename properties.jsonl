{"id": "C01", "title": "In-memory map behaves as a sorted map under every history", "statement": "Starting from NewLLRBTree, any sequence of Put, GetByKey, GetByIndex, PatchByKey, PatchByIndex, DeleteByKey, DeleteByIndex, BisectLeft, BisectRight, Len and Reset returns exactly what the same sequence returns on a plain key-sorted list of key:value pairs (Put adds only an absent key and otherwise answers false; Delete and Patch answer whether the item existed; a missing index or key answers ok=false).", "quantifier": "every compare function that is a consistent total preorder, every finite operation history, all keys, values and indices (negative and out of range included)", "why_tests_cant": "the rebalancing path taken depends on the whole history; tests try a few permutations of a few thousand integers", "anchors": ["llrb_tree.go: Put, GetByKey, GetByIndex, PatchByKey, PatchByIndex, DeleteByKey, DeleteByIndex, BisectLeft, BisectRight, Len, Reset, insert, delete, deleteMin, fixUp"]}
{"id": "C02", "title": "In-memory map never dereferences nil and always terminates", "statement": "No LLRBTree operation issued after any history panics or loops forever when the compare function is a consistent total preorder.", "quantifier": "every lawful compare function, every history, every next operation", "why_tests_cant": "a nil dereference in delete needs a red/black configuration that violates the tree's invariant; only an invariant over all histories excludes it", "anchors": ["llrb_tree.go: delete, deleteMin, moveRedLeft, moveRedRight, rotateLeft, rotateRight, colorFlip, fixUp, postInsertAdjustLen, preDeleteByIndexAdjustLen"]}
{"id": "C03", "title": "In-memory map stays balanced", "statement": "After any history an LLRBTree holding n items has depth at most 2*log2(n+1), so GetByKey, PatchByKey, Put and Bisect perform at most that many comparisons per descent, DeleteByKey at most 8*log2(n+1) comparisons and DeleteByIndex at most 6*log2(n+1).", "quantifier": "every lawful compare function and every history, any n", "why_tests_cant": "worst-case depth is an extremal property over all insertion and deletion orders", "anchors": ["llrb_tree.go: insert, delete, fixUp, GetByKey"]}
{"id": "C04", "title": "BisectLeft and BisectRight meet their documented contract (in-memory map)", "statement": "For an LLRBTree with n items, if the key is present both bisects answer found=true and the item's index; if it is absent BisectLeft answers the index of the last smaller item (-1 if none) and BisectRight the index of the first larger item (n if none), found=false.", "quantifier": "every reachable map and every key, present or absent, below, between and above all stored keys", "why_tests_cant": "index arithmetic walks subtree counters whose values depend on the history", "anchors": ["llrb_tree.go: BisectLeft, BisectRight", "common_api.go: SortedMap"]}
{"id": "C05", "title": "Index order is key order (in-memory map)", "statement": "In every reachable LLRBTree, GetByIndex succeeds exactly on 0..Len()-1, the keys it returns are strictly increasing in the index, and GetByKey of the key at index i returns the value at index i.", "quantifier": "every reachable map and every pair of indices", "why_tests_cant": "must hold for all pairs of indices in all reachable trees", "anchors": ["llrb_tree.go: GetByIndex, GetByKey, Len"]}
{"id": "C06", "title": "Put never overwrites; Patch never inserts (in-memory map)", "statement": "Put of a key already present answers ok=false and leaves every item (value included) unchanged; PatchByKey/PatchByIndex of an absent key or index answers ok=false and changes nothing; a successful Patch changes exactly that item's value and no key.", "quantifier": "every reachable map, every key, index and value", "why_tests_cant": "absence of side effects on all other items over all states", "anchors": ["llrb_tree.go: Put, insert, PatchByKey, PatchByIndex"]}
{"id": "C07", "title": "Delete removes exactly one item (in-memory map)", "statement": "A successful DeleteByKey(k) / DeleteByIndex(i) removes exactly the item with that key / at that index, all other items keep their key, value and relative order, Len drops by one; an unsuccessful one changes nothing.", "quantifier": "every reachable map, every key and index", "why_tests_cant": "delete replaces a node by its successor and rotates; which items are touched depends on the shape", "anchors": ["llrb_tree.go: DeleteByKey, DeleteByIndex, delete, deleteMin, preDeleteByKeyAdjustLen, preDeleteByIndexAdjustLen"]}
{"id": "C08", "title": "Validate accepts every reachable in-memory map and Len is exact", "statement": "After every history on an LLRBTree, Validate returns nil and Len returns the number of stored items.", "quantifier": "every lawful compare function and every history", "why_tests_cant": "the cached subtree sizes are updated incrementally in a different pass from the structural change", "anchors": ["llrb_validate.go: validate", "llrb_tree.go: Len, postInsertAdjustLen, preDeleteByKeyAdjustLen, rotateLeft, rotateRight"]}
{"id": "C09", "title": "A compare error never corrupts the in-memory map", "statement": "If the compare function rejects exactly the keys outside a valid set, and all stored keys are valid, then any keyed operation with an invalid key returns the error (or, on an empty map, the empty-map answer) and the map's contents, order and Len are unchanged.", "quantifier": "every compare function of that shape, every reachable non-empty map, every invalid key, every keyed operation except Put on an empty map", "why_tests_cant": "the point where the error strikes and the in-place mutation done before it depend on tree shape", "anchors": ["llrb_tree.go: insert, delete, preDeleteByKeyAdjustLen, GetByKey, PatchByKey, BisectLeft, BisectRight", "common_api.go: Compare*"]}
{"id": "C10", "title": "A key the compare function rejects is never stored", "statement": "Put of a key for which the compare function returns an error fails with that error and stores nothing, in both map implementations.", "quantifier": "every compare function, every map state including the empty one", "why_tests_cant": "tests only ever use keys of the right type", "anchors": ["llrb_tree.go: insert, Put, postInsertAdjustLen", "btree.go: Put, insertHere"]}
{"id": "C11", "title": "The unsigned-integer, string and byte-slice compare functions are consistent total orders", "statement": "CompareUint16, CompareUint32, CompareUint64, CompareString and CompareByteSlice on operands of their type return a negative, zero or positive result forming a total order (antisymmetric, transitive, zero only on equal operands) that is numeric order, resp. bytewise lexicographic order.", "quantifier": "all pairs and triples of operands of the type", "why_tests_cant": "2^128 pairs of uint64; unboundedly many strings", "anchors": ["common_api.go: CompareUint16, CompareUint32, CompareUint64, CompareString, CompareByteSlice"]}
{"id": "C12", "title": "CompareInt is a consistent total order", "statement": "CompareInt on two ints returns a result whose sign is the numeric comparison of the two ints.", "quantifier": "all pairs of 64-bit ints", "why_tests_cant": "only pairs whose difference overflows int64 misbehave; no test uses them", "anchors": ["common_api.go: CompareInt"]}
{"id": "C13", "title": "CompareTime is a consistent total order", "statement": "CompareTime on time.Time operands is antisymmetric and transitive, and zero only for the same instant.", "quantifier": "all pairs and triples of time.Time values, with and without monotonic clock readings", "why_tests_cant": "the failure needs a mix of values with and without monotonic readings across a wall clock step", "anchors": ["common_api.go: CompareTime"]}
{"id": "C14", "title": "Compare functions reject exactly operands of the wrong type", "statement": "Each Compare* function returns an error if and only if at least one operand is not of its dynamic type.", "quantifier": "all pairs of dynamically typed keys", "why_tests_cant": "quantifies over all dynamic types on both sides", "anchors": ["common_api.go: CompareInt, CompareUint16, CompareUint32, CompareUint64, CompareString, CompareByteSlice, CompareTime"]}
{"id": "C15", "title": "B+Tree behaves as a sorted map under every history", "statement": "Starting from NewBPlusTree with any valid maxKeysPerNode, any sequence of the SortedMap operations freely interleaved with Flush, Purge, Touch, TouchItem, Prune and cache evictions returns exactly what the same SortedMap operations return on a plain key-sorted list, as long as the storage callbacks do not fail.", "quantifier": "every lawful compare function, every valid maxKeysPerNode, every history and every placement of flushes, purges and evictions, all keys, values and indices", "why_tests_cant": "split, borrow, merge, load and evict paths combine with the whole history", "anchors": ["btree.go: Put, GetByKey, GetByIndex, PatchByKey, PatchByIndex, DeleteByKey, DeleteByIndex, BisectLeft, BisectRight, Len, insertHere, rebalanceHere, loadNode, postNode, flushNode, purgeNode"]}
{"id": "C16", "title": "B+Tree operations never panic and always terminate", "statement": "No B+Tree operation issued after any history panics (nil dereference, failed type assertion, slice index, explicit logic-error panic) or loops forever, and none reports a 'Logic error'.", "quantifier": "every lawful compare function, every valid maxKeysPerNode, every history, with and without a node cache", "why_tests_cant": "pointer-level invariants (parent, sibling, prefix-sum and LRU links) over all histories", "anchors": ["btree.go: all operations, markNodeUsed, markNodeEvicted, markNodeToBeDiscarded"]}
{"id": "C17", "title": "B+Tree stays balanced and within its occupancy limits", "statement": "After any history all leaves are at the same depth, every non-root node holds between maxKeysPerNode/2 and maxKeysPerNode keys, the root at most maxKeysPerNode and (if not a leaf) at least one.", "quantifier": "every valid maxKeysPerNode and every history", "why_tests_cant": "the invariant must survive every split, borrow, merge and root collapse", "anchors": ["btree.go: insertHere, rebalanceHere"]}
{"id": "C18", "title": "Validate accepts every reachable B+Tree", "statement": "After any history Validate returns nil if loading does not fail, without panicking, and changes no content.", "quantifier": "every valid maxKeysPerNode and every history", "why_tests_cant": "Validate follows the prefix-sum links (and dereferences one unguarded); all reachable link shapes matter", "anchors": ["btree_validate.go: validate, validatePrefixSum"]}
{"id": "C19", "title": "BisectLeft and BisectRight meet their documented contract (B+Tree)", "statement": "Same contract as for the in-memory map, for every reachable B+Tree, whichever nodes are loaded.", "quantifier": "every reachable B+Tree, every key", "why_tests_cant": "the index is accumulated through prefix-sum trees spanning nodes that may or may not be in memory", "anchors": ["btree.go: BisectLeft, BisectRight, arrangePrefixSumTree"]}
{"id": "C20", "title": "Index operations address the right item (B+Tree)", "statement": "GetByIndex, PatchByIndex and DeleteByIndex with index i act on the i-th smallest item, for every i in range, and answer ok=false without effect outside the range.", "quantifier": "every reachable B+Tree, every index, any loaded/unloaded mix", "why_tests_cant": "prefix sums are updated incrementally across levels", "anchors": ["btree.go: GetByIndex, PatchByIndex, DeleteByIndex, updatePrefixSumTreeLeafToRootRecursively, arrangePrefixSumTreeRecursively"]}
{"id": "C21", "title": "The two implementations are observationally equivalent", "statement": "Any SortedMap history gives the same answers on an LLRBTree and on a B+Tree of any valid order (storage not failing).", "quantifier": "every lawful compare function, every history, every valid maxKeysPerNode", "why_tests_cant": "relational over all histories", "anchors": ["common_api.go: SortedMap", "llrb_tree.go", "btree.go"]}
{"id": "C22", "title": "Flush then OldBPlusTree reproduces the map", "statement": "If Flush succeeds, OldBPlusTree on the returned location yields a tree with the same items in the same order and the same maxKeysPerNode, provided the client's pack/unpack callbacks are inverse to each other.", "quantifier": "every reachable tree, every flush mode, every round-tripping key/value codec", "why_tests_cant": "every tree shape, every mixture of clean, dirty and unloaded nodes", "anchors": ["btree.go: Flush, flushNode, postNode, loadNode", "btree_api.go: OldBPlusTree"]}
{"id": "C23", "title": "A flushed snapshot survives all later activity until it is pruned", "statement": "The location returned by a successful Flush stays a readable, unchanged snapshot through every later operation, failed or not, and through a crash at any callback boundary, as long as neither Prune nor Discard is called after the next modification.", "quantifier": "every later history of operations, including failing storage callbacks and a crash between any two callbacks", "why_tests_cant": "crash points and histories are unbounded", "anchors": ["btree.go: postNode, markNodeDirty, placeNodeOnStaleOnDiskReferenceList, pruneWhileLocked"]}
{"id": "C24", "title": "Prune right after Flush discards nothing the flushed tree needs", "statement": "After a successful Flush, Prune discards only storage locations not referenced by the flushed tree: the tree remains fully readable from its returned location.", "quantifier": "every history before the Flush", "why_tests_cant": "depends on exactly which locations became stale in the whole history", "anchors": ["btree.go: Prune, pruneWhileLocked, placeNodeOnStaleOnDiskReferenceList"]}
{"id": "C25", "title": "Prune never invalidates the last flushed snapshot", "statement": "Calling Prune at any time leaves the most recently flushed root location readable.", "quantifier": "every history, in particular modifications between Flush and Prune", "why_tests_cant": "needs the history Flush, modify, Prune, crash", "anchors": ["btree.go: Prune, pruneWhileLocked, markNodeDirty"]}
{"id": "C26", "title": "Storage accounting: no location is leaked, discarded while live, or discarded twice", "statement": "At every moment the locations handed out by PutNode and not yet passed to DiscardNode are exactly those referenced by the current tree plus those awaiting Prune; no location is passed to DiscardNode twice and none while referenced (callbacks not failing, PutNode returning fresh locations).", "quantifier": "every history of operations, flushes and prunes", "why_tests_cant": "exactness over the whole history", "anchors": ["btree.go: placeNodeOnStaleOnDiskReferenceList, markNodeDirty, markNodeToBeDiscarded, pruneWhileLocked, postNode"]}
{"id": "C27", "title": "Discard releases every location of the tree", "statement": "If callbacks do not fail, Discard passes to DiscardNode exactly the locations still held by the tree (referenced or awaiting Prune), each once, and removes all of the tree's nodes from the shared cache.", "quantifier": "every reachable tree in every loaded/unloaded/dirty state", "why_tests_cant": "depends on the whole history and on which nodes are in memory", "anchors": ["btree.go: Discard, discardNode, markNodeToBeDiscarded"]}
{"id": "C28", "title": "Discard reports failure to release the tree's storage", "statement": "If some node cannot be read while discarding, so that some locations are not released, Discard returns an error.", "quantifier": "every reachable tree and every failing GetNode call", "why_tests_cant": "needs a storage failure during Discard", "anchors": ["btree.go: Discard, discardNode"]}
{"id": "C29", "title": "Purging and evicting never change the map", "statement": "Purge(false), Purge(true), Flush(true) and any cache eviction leave the map's contents unchanged, whatever the mixture of clean and dirty nodes; Purge(true) on a tree with unflushed modifications returns an error and unloads nothing; Purge(true) on a fully flushed tree succeeds.", "quantifier": "every reachable tree and every eviction choice", "why_tests_cant": "which nodes are clean, dirty or loaded varies over all histories", "anchors": ["btree.go: Purge, purgeNode, Flush, flushNode, btreeNodeCacheDrainer"]}
{"id": "C30", "title": "Flush is idempotent and complete", "statement": "After a successful Flush nothing is unflushed: a second Flush performs no PutNode call and returns the same location, and Purge(true) succeeds.", "quantifier": "every reachable tree", "why_tests_cant": "must cover every dirty node whichever path dirtied it", "anchors": ["btree.go: Flush, flushNode, postNode, markNodeClean"]}
{"id": "C31", "title": "Read-only operations never cause writes", "statement": "GetByKey, GetByIndex, BisectLeft, BisectRight, Len, Validate, FetchDimensionsReport, FetchLayoutReport and a Put of a present key make no node need rewriting: a Flush after a flushed state and any number of them calls PutNode zero times and returns the same location.", "quantifier": "every flushed state and every sequence of read-only operations", "why_tests_cant": "absence of an effect over all sequences", "anchors": ["btree.go: GetByKey, GetByIndex, BisectLeft, BisectRight, Len, Put, loadNode"]}
{"id": "C32", "title": "Touch marks everything for rewriting and loses nothing", "statement": "After a successful Touch every previously persisted location of the tree awaits Prune, the following Flush rewrites every node, and the contents are unchanged.", "quantifier": "every reachable tree", "why_tests_cant": "all nodes in all loaded/unloaded states", "anchors": ["btree.go: Touch, touchNode, markNodeDirty"]}
{"id": "C33", "title": "A TouchItem sweep visits the whole tree and ends", "statement": "On an unmodified non-empty tree, starting at 0 and feeding back the returned index, TouchItem strictly advances, reaches exactly Len() after finitely many calls having marked every leaf for rewriting, and then returns 0; contents are unchanged.", "quantifier": "every reachable tree and every start index", "why_tests_cant": "iteration over arbitrary leaf sizes", "anchors": ["btree.go: TouchItem, touchLoadedNodeToRoot"]}
{"id": "C34", "title": "A failing read leaves the map unchanged", "statement": "If GetNode fails during GetByKey, GetByIndex, Bisect*, Len, PatchBy*, Put, Touch, TouchItem, Validate or a report, the operation returns that error, contents are unchanged, and the operation can be retried with full effect.", "quantifier": "every reachable tree, every operation, every failing GetNode call", "why_tests_cant": "every failure point of every operation", "anchors": ["btree.go: loadNode, Put, PatchByKey, PatchByIndex, GetByKey, GetByIndex"]}
{"id": "C35", "title": "A delete that fails while rebalancing loses no other item", "statement": "If DeleteByKey or DeleteByIndex returns an error because a sibling could not be read, then no item other than the addressed one is lost, now or after any later Flush, Purge or eviction.", "quantifier": "every reachable tree, every delete, every failing GetNode call during rebalancing", "why_tests_cant": "needs a storage failure at the second level of a cascading merge followed by an eviction", "anchors": ["btree.go: DeleteByKey, DeleteByIndex, rebalanceHere"]}
{"id": "C36", "title": "A failing Flush loses nothing and can be retried", "statement": "If PutNode, PackKey or PackValue fails during Flush, the error is returned, the map's contents are unchanged and a later successful Flush yields a correct snapshot; a Flush for which packing does not fail and PutNode returns an unused place for every node succeeds, also after failed ones.", "quantifier": "every reachable tree and every failing call of PutNode or of a packing callback", "why_tests_cant": "every failure point inside the post-order walk, with and without purging", "anchors": ["btree.go: Flush, flushNode, postNode"]}
{"id": "C37", "title": "Node encoding round-trips at byte level", "statement": "The bytes written for a node decode to the same node (items, root and leaf flags, maxKeysPerNode, every key, value and child reference in order), consume the whole buffer, and bytes with trailing garbage are rejected.", "quantifier": "every node content and every round-tripping key/value codec", "why_tests_cant": "unbounded payloads", "anchors": ["btree.go: postNode, loadNode, onDiskNodeStruct, onDiskReferenceToNodeStruct"]}
{"id": "C38", "title": "Node cache bookkeeping is exact", "statement": "At every operation boundary Stats().CleanLRUItems and DirtyLRUItems are exactly the numbers of in-memory clean and dirty nodes of all trees sharing the cache, and the two LRU lists are well-formed lists of exactly those nodes.", "quantifier": "every interleaving of operations of any number of trees and of the drainer", "why_tests_cant": "doubly-linked list surgery with eight cases per transition over all histories", "anchors": ["btree.go: markNodeUsed, markNodeClean, markNodeDirty, markNodeEvicted, markNodeToBeDiscarded, Stats"]}
{"id": "C39", "title": "The drainer evicts only unmodified nodes, never panics and stops at the low limit", "statement": "Whatever the interleaving, the background drainer never evicts a dirty node, never panics, and when it stops either no clean node is cached or the number of cached nodes is at most EvictLowLimit; run without interference it stops after finitely many iterations.", "quantifier": "every schedule of operations and drainer steps", "why_tests_cant": "schedules are unbounded; the drainer re-validates its victim after re-acquiring locks", "anchors": ["btree.go: btreeNodeCacheDrainer, purgeNode, UpdateLimits, markNodeClean"]}
{"id": "C40", "title": "Trees sharing a cache do not affect each other", "statement": "An operation on one B+Tree never changes the contents, structure or persisted nodes of another B+Tree sharing the same cache.", "quantifier": "every history over any number of trees sharing a cache", "why_tests_cant": "frame property over all histories", "anchors": ["btree.go: btreeNodeCacheStruct, markNode*"]}
{"id": "C41", "title": "The drainer always makes progress", "statement": "Whenever the drainer runs and does not stop, each of its iterations that finds its victim still clean evicts at least one node.", "quantifier": "every reachable state of trees and cache, including after Discard of one of the trees", "why_tests_cant": "needs a failed Discard followed by cache pressure", "anchors": ["btree.go: btreeNodeCacheDrainer, Discard, markNodeEvicted"]}
{"id": "C42", "title": "The cache limit is enforced", "statement": "Whenever more than EvictHighLimit nodes are cached and at least one of them is clean, a drainer is active.", "quantifier": "every history", "why_tests_cant": "depends on which transition crosses the limit", "anchors": ["btree.go: markNodeClean, markNodeDirty, UpdateLimits"]}
{"id": "C43", "title": "FetchLayoutReport is exact", "statement": "On a flushed tree, FetchLayoutReport maps each object number other than 0 to the total bytes of the tree's nodes stored in that object, and nothing else.", "quantifier": "every flushed tree, any assignment of nodes to objects", "why_tests_cant": "all tree shapes and layouts", "anchors": ["btree.go: FetchLayoutReport, updateLayoutReport"]}
{"id": "C44", "title": "FetchDimensionsReport is exact", "statement": "FetchDimensionsReport returns maxKeysPerNode, half of it, Len, and the number of levels of the tree.", "quantifier": "every reachable tree", "why_tests_cant": "all tree shapes", "anchors": ["btree.go: FetchDimensionsReport"]}
{"id": "C45", "title": "No deadlock", "statement": "No set of concurrent operations on any number of trees sharing a cache, together with the drainer, can reach a state where every unfinished thread waits for a mutex (client callbacks not re-entering the tree).", "quantifier": "every number of threads, every schedule", "why_tests_cant": "unbounded schedules", "anchors": ["btree.go: Lock/Unlock uses, btreeNodeCacheDrainer", "llrb_tree.go: Lock/Unlock uses"]}
{"id": "C46", "title": "Concurrent use is linearizable", "statement": "Concurrent SortedMap calls on one map take effect one at a time in some order consistent with real time; the only exceptions are calls made without the mutex (LLRBTree.Reset, BPlusTree.FetchLocation).", "quantifier": "every schedule of any number of threads", "why_tests_cant": "unbounded schedules", "anchors": ["llrb_tree.go: Lock/Unlock uses, Reset", "btree.go: Lock/Unlock uses, FetchLocation"]}
{"id": "C47", "title": "NewBPlusTree accepts exactly the documented orders", "statement": "NewBPlusTree panics if and only if maxKeysPerNode is odd or less than four; otherwise the new tree is empty and valid.", "quantifier": "all uint64 values of maxKeysPerNode", "why_tests_cant": "all 2^64 arguments", "anchors": ["btree_api.go: NewBPlusTree"]}
{"id": "C48", "title": "A compare error never corrupts the B+Tree", "statement": "If the compare function rejects exactly the keys outside a valid set, a keyed operation with an invalid key on a non-empty B+Tree returns the error and leaves the contents unchanged.", "quantifier": "every reachable non-empty B+Tree, every invalid key, every keyed operation", "why_tests_cant": "error points depend on shape", "anchors": ["btree.go: Put, GetByKey, PatchByKey, DeleteByKey, BisectLeft, BisectRight"]}
{"id": "C49", "title": "What a nil answer of Validate guarantees", "statement": "On an LLRBTree in whatever state, Validate returns nil exactly if every subtree's recorded count is right, and then Len and GetByIndex agree with the items in order. On a BPlusTree in whatever state, if Validate returns nil without calling GetNode, it changed nothing, the numbers of entries are within the limits, and every recorded count, Len among them, is the number of items below. Order of keys and inner prefix sums are not covered: Validate accepts maps in which GetByKey or GetByIndex go wrong.", "quantifier": "every state of memory, reachable or not", "why_tests_cant": "tests run Validate only on maps built through the API; the claim is about corrupted states", "anchors": ["llrb_validate.go", "btree_validate.go", "common_api.go: Validate"]}
{"id": "C50", "title": "The least recently used clean node is evicted first", "statement": "Whatever sequence of uses, loads, modifications, flushes and evictions the nodes of a cache go through, the drainer always evicts the clean node whose last use lies furthest back, and stops only when no node is clean or the lower limit is reached. A lookup that finds an item makes the leaf holding it the most recently used node.", "quantifier": "every sequence of events on the nodes of a cache; every history of calls before a lookup", "why_tests_cant": "unbounded sequences over hand-linked doubly linked lists; a wrong order only shows as a slow cache", "anchors": ["btree.go: markNodeUsed, markNodeClean, markNodeDirty, markNodeEvicted, markNodeToBeDiscarded, btreeNodeCacheDrainer"]}
{"id": "C51", "title": "Cache statistics count every fetch", "statement": "On a map with a cache, every call other than Validate, FetchLayoutReport and Dump raises CacheMisses by exactly the number of times it calls GetNode, whether it succeeds or fails, and never lowers CacheHits. Len counts exactly one hit or miss. Validate, FetchLayoutReport, Dump, Flush, Purge, Prune, FetchLocation, opening a map, evictions and UpdateLimits change neither count.", "quantifier": "every history, every call, every pattern of failing callbacks", "why_tests_cant": "depends on which nodes happen to be in memory at each step of unbounded histories", "anchors": ["btree.go: incCacheHits, incCacheMisses and their callers, Stats", "btree_validate.go"]}
{"id": "C52", "title": "FetchLayoutReport leaves memory as it was", "statement": "After a FetchLayoutReport that succeeds, exactly the nodes that were in memory before are in memory, of every map, as dirty as before, and the cache holds as many items.", "quantifier": "every history, any mix of nodes in memory and not", "why_tests_cant": "depends on which subtrees are in memory, out of exponentially many combinations", "anchors": ["btree.go: FetchLayoutReport, updateLayoutReport, purgeNode"]}
{"id": "C53", "title": "Operations read a logarithmic number of nodes", "statement": "On a map with d+1 levels of nodes, every SortedMap method other than Validate, and also TouchItem and FetchDimensionsReport, calls GetNode at most d+1 times (deletions 3d+1 times, Len once), whether callbacks fail or not; and a map with d+1 levels, d > 0, has at least 2 (m+1)^(d-1) m items, m being half the maximum number of keys per node. Validate, Touch, Discard, FetchLayoutReport and Dump call GetNode at most once for each stored node of the map, and not for those in memory.", "quantifier": "every history, every operation, every pattern of failing callbacks and of nodes in memory", "why_tests_cant": "a bound over all reachable trees and all cache contents", "anchors": ["btree.go: loops over nodes in all methods, rebalanceHere"]}
{"id": "C54", "title": "Dump prints the contents or reports an error", "statement": "Dump of an in-memory map prints every key of the map, and the keys in decreasing order, if DumpKey works for them, and returns an error if DumpKey fails for one of them. Dump of a B+Tree map never panics, prints the map's items with their values in order and returns nil if no callback fails; otherwise it returns an error. It changes neither the contents of any map nor what is stored, with any pattern of failing callbacks.", "quantifier": "every history, every pattern of failing GetNode, unpack, DumpKey and DumpValue calls", "why_tests_cant": "it is about every reachable tree and every combination of nodes in memory and of failures", "anchors": ["llrb_dump.go: Dump", "btree_dump.go: Dump, dumpNode"]}
{"id": "C55", "title": "Cache limits are those last set", "statement": "Stats reports as EvictLowLimit and EvictHighLimit exactly the two values last given to NewBPlusTreeCache or UpdateLimits: no call on any map of the cache, no eviction and no step of the background drainer changes them. The hit and miss counts that Stats reports never decrease while the process runs.", "quantifier": "every state of the cache and its maps, every sequence of calls and evictions, every pattern of failing callbacks", "why_tests_cant": "unbounded sequences of calls on any number of maps, with failures at any point", "anchors": ["btree.go: UpdateLimits, Stats, btreeNodeCacheDrainer, incCacheHits, incCacheMisses", "btree_api.go: NewBPlusTreeCache"]}
{"id": "C56", "title": "A failing Prune harms nothing, and must not be retried", "statement": "If DiscardNode fails during Prune, Prune returns that error; only locations that a Prune without failures would have discarded have been discarded, each at most once, and not all of them; the contents and locations of this and all other maps are unchanged and every later call other than Prune and Discard of that map behaves as specified. Retrying, however, is not safe: right away it fails again, because locations already discarded are passed to DiscardNode once more; after a Flush that reuses one of them it discards the live contents.", "quantifier": "every reachable state of any number of maps and every failing DiscardNode call", "why_tests_cant": "every failure point, every map state, and everything that may be called afterwards", "anchors": ["btree.go: Prune, pruneWhileLocked"]}
{"id": "C57", "title": "Reset empties the in-memory map at any time", "statement": "Reset takes effect at one moment between its call and its return: from then on the map is empty, and calls running at the same time answer as if made entirely before or after it.", "quantifier": "every state of the map, every set of concurrent calls and every interleaving of their steps", "why_tests_cant": "depends on where exactly Reset falls within another call; a race detector or test sees only the interleavings that happen", "anchors": ["llrb_tree.go: Reset, Put, postInsertAdjustLen"]}
{"id": "C58", "title": "FetchLocation returns a location of the map", "statement": "FetchLocation returns the location returned by the last Flush if the map has not changed since, and zeros if it has, whenever it is called.", "quantifier": "every history, every concurrent call and every interleaving", "why_tests_cant": "depends on where exactly the three reads fall within another call", "anchors": ["btree.go: FetchLocation, placeNodeOnStaleOnDiskReferenceList, postNode"]}
{"id": "C59", "title": "A snapshot can be opened beside the map it was taken from", "statement": "After a Flush, the returned location can be opened as a further map while the first map goes on being used. As long as neither is pruned or discarded and PutNode hands out places that are not in use, the first map and all others answer, store and call the callbacks as if the further map did not exist, and the further map behaves as a sorted map that starts with the contents at the time of the Flush, whatever is done to the first map.", "quantifier": "every history up to the Flush, every later sequence of calls on any of the maps, every behaviour of the callbacks", "why_tests_cant": "the maps share nodes of the storage and the cache; interference would need a particular interleaving of calls on both, evictions and node boundaries", "anchors": ["btree_api.go: OldBPlusTree", "btree.go: loadNode, postNode, pruneWhileLocked"]}
{"id": "C60", "title": "Flush writes few nodes per change", "statement": "If Flush would call PutNode n times now, then after one more operation on a map with L levels of nodes it calls it at most n + 2L + 1 times if the operation was a Put, n + L times after a Patch, n + L + 1 times after a deletion, n to n + L times after TouchItem, and n times after an operation that only reads, a report, Dump, Purge or Prune, failed or not. It stays n also after any operation that does not answer true (a Put of a key that is there, a deletion of one that is not, an index out of range, a rejected key), except PatchByKey. The number of levels grows by at most one per operation. Right after a Flush n is 0. A Flush that fails does not lose what it has written: the calls of it that succeeded and those of the next Flush are n together.", "quantifier": "every history, every operation, every behaviour of the callbacks except that a deletion must not fail in reading", "why_tests_cant": "a count over chains of splits and merges of any length, on trees of any shape and any set of unwritten nodes", "anchors": ["btree.go: insertHere, rebalanceHere, markNodeDirty, flushNode", "btree_api.go: Flush"]}
{"id": "C61", "title": "A node cut short is not taken for a whole one", "statement": "If GetNode returns only the beginning of the bytes that were handed to PutNode (a torn write, a short read), and the client's unpack callbacks reject a key or value that is cut short, loading the node does not succeed: it returns an error as if one of the unpack calls had failed, and leaves everything as it would then. Hence what the other properties say of failing callbacks holds of short reads. No node's bytes are the beginning of another's.", "quantifier": "every node, every proper beginning of its bytes, every state of map and cache, every codec of keys and values", "why_tests_cant": "any node contents cut at any byte, met in any state", "anchors": ["btree.go: loadNode, postNode, onDiskNodeStruct", "btree_api.go: BPlusTreeCallbacks"]}
{"id": "C62", "title": "Flush(true) and Purge give memory back, and only what is stored", "statement": "After a successful Flush(true) no node of the map is in memory. Purge(true) fails exactly if a node of the map has changes that are not stored, and then changes nothing; if it succeeds no node of the map is in memory. Purge(false) always succeeds and leaves in memory exactly the nodes that had such changes. The nodes of other maps stay. If no other map is open, Stats shows no cached node after Flush(true) or Purge(true).", "quantifier": "every history of any number of maps sharing a cache, every compare function, every behaviour of the callbacks", "why_tests_cant": "which nodes are in memory and which have changes depends on the whole history of operations, flushes, purges and evictions; a node forgotten in memory or one evicted with its changes shows only under particular interleavings", "anchors": ["btree.go: Flush, Purge, flushNode, purgeNode, markNodeEvicted"]}

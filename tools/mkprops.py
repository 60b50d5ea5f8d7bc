#!/usr/bin/env python3
"""Writes properties.jsonl. Run from /verif."""
import json
P=[]
def p(title, statement, quantifier, why, anchors):
    P.append(dict(id=f"C{len(P)+1:02d}",title=title,statement=statement,quantifier=quantifier,why_tests_cant=why,anchors=anchors))

p("In-memory map behaves as a sorted map under every history",
  "Starting from NewLLRBTree, any sequence of Put, GetByKey, GetByIndex, PatchByKey, PatchByIndex, DeleteByKey, DeleteByIndex, BisectLeft, BisectRight, Len and Reset returns exactly what the same sequence returns on a plain key-sorted list of key:value pairs (Put adds only an absent key and otherwise answers false; Delete and Patch answer whether the item existed; a missing index or key answers ok=false).",
  "every compare function that is a consistent total preorder, every finite operation history, all keys, values and indices (negative and out of range included)",
  "the rebalancing path taken depends on the whole history; tests try a few permutations of a few thousand integers",
  ["llrb_tree.go: Put, GetByKey, GetByIndex, PatchByKey, PatchByIndex, DeleteByKey, DeleteByIndex, BisectLeft, BisectRight, Len, Reset, insert, delete, deleteMin, fixUp"])
p("In-memory map never dereferences nil and always terminates",
  "No LLRBTree operation issued after any history panics or loops forever when the compare function is a consistent total preorder.",
  "every lawful compare function, every history, every next operation",
  "a nil dereference in delete needs a red/black configuration that violates the tree's invariant; only an invariant over all histories excludes it",
  ["llrb_tree.go: delete, deleteMin, moveRedLeft, moveRedRight, rotateLeft, rotateRight, colorFlip, fixUp, postInsertAdjustLen, preDeleteByIndexAdjustLen"])
p("In-memory map stays balanced",
  "After any history an LLRBTree holding n items has depth at most 2*log2(n+1), so GetByKey, Put and Bisect perform at most that many comparisons per descent.",
  "every lawful compare function and every history, any n",
  "worst-case depth is an extremal property over all insertion and deletion orders",
  ["llrb_tree.go: insert, delete, fixUp, GetByKey"])
p("BisectLeft and BisectRight meet their documented contract (in-memory map)",
  "For an LLRBTree with n items, if the key is present both bisects answer found=true and the item's index; if it is absent BisectLeft answers the index of the last smaller item (-1 if none) and BisectRight the index of the first larger item (n if none), found=false.",
  "every reachable map and every key, present or absent, below, between and above all stored keys",
  "index arithmetic walks subtree counters whose values depend on the history",
  ["llrb_tree.go: BisectLeft, BisectRight", "common_api.go: SortedMap"])
p("Index order is key order (in-memory map)",
  "In every reachable LLRBTree, GetByIndex succeeds exactly on 0..Len()-1, the keys it returns are strictly increasing in the index, and GetByKey of the key at index i returns the value at index i.",
  "every reachable map and every pair of indices",
  "must hold for all pairs of indices in all reachable trees",
  ["llrb_tree.go: GetByIndex, GetByKey, Len"])
p("Put never overwrites; Patch never inserts (in-memory map)",
  "Put of a key already present answers ok=false and leaves every item (value included) unchanged; PatchByKey/PatchByIndex of an absent key or index answers ok=false and changes nothing; a successful Patch changes exactly that item's value and no key.",
  "every reachable map, every key, index and value",
  "absence of side effects on all other items over all states",
  ["llrb_tree.go: Put, insert, PatchByKey, PatchByIndex"])
p("Delete removes exactly one item (in-memory map)",
  "A successful DeleteByKey(k) / DeleteByIndex(i) removes exactly the item with that key / at that index, all other items keep their key, value and relative order, Len drops by one; an unsuccessful one changes nothing.",
  "every reachable map, every key and index",
  "delete replaces a node by its successor and rotates; which items are touched depends on the shape",
  ["llrb_tree.go: DeleteByKey, DeleteByIndex, delete, deleteMin, preDeleteByKeyAdjustLen, preDeleteByIndexAdjustLen"])
p("Validate accepts every reachable in-memory map and Len is exact",
  "After every history on an LLRBTree, Validate returns nil and Len returns the number of stored items.",
  "every lawful compare function and every history",
  "the cached subtree sizes are updated incrementally in a different pass from the structural change",
  ["llrb_validate.go: validate", "llrb_tree.go: Len, postInsertAdjustLen, preDeleteByKeyAdjustLen, rotateLeft, rotateRight"])
p("A compare error never corrupts the in-memory map",
  "If the compare function rejects exactly the keys outside a valid set, and all stored keys are valid, then any keyed operation with an invalid key returns the error (or, on an empty map, the empty-map answer) and the map's contents, order and Len are unchanged.",
  "every compare function of that shape, every reachable non-empty map, every invalid key, every keyed operation except Put on an empty map",
  "the point where the error strikes and the in-place mutation done before it depend on tree shape",
  ["llrb_tree.go: insert, delete, preDeleteByKeyAdjustLen, GetByKey, PatchByKey, BisectLeft, BisectRight", "common_api.go: Compare*"])
p("A key the compare function rejects is never stored",
  "Put of a key for which the compare function returns an error fails with that error and stores nothing, in both map implementations.",
  "every compare function, every map state including the empty one",
  "tests only ever use keys of the right type",
  ["llrb_tree.go: insert, Put, postInsertAdjustLen", "btree.go: Put, insertHere"])
p("The unsigned-integer, string and byte-slice compare functions are consistent total orders",
  "CompareUint16, CompareUint32, CompareUint64, CompareString and CompareByteSlice on operands of their type return a negative, zero or positive result forming a total order (antisymmetric, transitive, zero only on equal operands) that is numeric order, resp. bytewise lexicographic order.",
  "all pairs and triples of operands of the type",
  "2^128 pairs of uint64; unboundedly many strings",
  ["common_api.go: CompareUint16, CompareUint32, CompareUint64, CompareString, CompareByteSlice"])
p("CompareInt is a consistent total order",
  "CompareInt on two ints returns a result whose sign is the numeric comparison of the two ints.",
  "all pairs of 64-bit ints",
  "only pairs whose difference overflows int64 misbehave; no test uses them",
  ["common_api.go: CompareInt"])
p("CompareTime is a consistent total order",
  "CompareTime on time.Time operands is antisymmetric and transitive, and zero only for the same instant.",
  "all pairs and triples of time.Time values, with and without monotonic clock readings",
  "the failure needs a mix of values with and without monotonic readings across a wall clock step",
  ["common_api.go: CompareTime"])
p("Compare functions reject exactly operands of the wrong type",
  "Each Compare* function returns an error if and only if at least one operand is not of its dynamic type.",
  "all pairs of dynamically typed keys",
  "quantifies over all dynamic types on both sides",
  ["common_api.go: CompareInt, CompareUint16, CompareUint32, CompareUint64, CompareString, CompareByteSlice, CompareTime"])
p("B+Tree behaves as a sorted map under every history",
  "Starting from NewBPlusTree with any valid maxKeysPerNode, any sequence of the SortedMap operations freely interleaved with Flush, Purge, Touch, TouchItem, Prune and cache evictions returns exactly what the same SortedMap operations return on a plain key-sorted list, as long as the storage callbacks do not fail.",
  "every lawful compare function, every valid maxKeysPerNode, every history and every placement of flushes, purges and evictions, all keys, values and indices",
  "split, borrow, merge, load and evict paths combine with the whole history",
  ["btree.go: Put, GetByKey, GetByIndex, PatchByKey, PatchByIndex, DeleteByKey, DeleteByIndex, BisectLeft, BisectRight, Len, insertHere, rebalanceHere, loadNode, postNode, flushNode, purgeNode"])
p("B+Tree operations never panic and always terminate",
  "No B+Tree operation issued after any history panics (nil dereference, failed type assertion, slice index, explicit logic-error panic) or loops forever, and none reports a 'Logic error'.",
  "every lawful compare function, every valid maxKeysPerNode, every history, with and without a node cache",
  "pointer-level invariants (parent, sibling, prefix-sum and LRU links) over all histories",
  ["btree.go: all operations, markNodeUsed, markNodeEvicted, markNodeToBeDiscarded"])
p("B+Tree stays balanced and within its occupancy limits",
  "After any history all leaves are at the same depth, every non-root node holds between maxKeysPerNode/2 and maxKeysPerNode keys, the root at most maxKeysPerNode and (if not a leaf) at least one.",
  "every valid maxKeysPerNode and every history",
  "the invariant must survive every split, borrow, merge and root collapse",
  ["btree.go: insertHere, rebalanceHere"])
p("Validate accepts every reachable B+Tree",
  "After any history Validate returns nil if loading does not fail, without panicking, and changes no content.",
  "every valid maxKeysPerNode and every history",
  "Validate follows the prefix-sum links (and dereferences one unguarded); all reachable link shapes matter",
  ["btree_validate.go: validate, validatePrefixSum"])
p("BisectLeft and BisectRight meet their documented contract (B+Tree)",
  "Same contract as for the in-memory map, for every reachable B+Tree, whichever nodes are loaded.",
  "every reachable B+Tree, every key",
  "the index is accumulated through prefix-sum trees spanning nodes that may or may not be in memory",
  ["btree.go: BisectLeft, BisectRight, arrangePrefixSumTree"])
p("Index operations address the right item (B+Tree)",
  "GetByIndex, PatchByIndex and DeleteByIndex with index i act on the i-th smallest item, for every i in range, and answer ok=false without effect outside the range.",
  "every reachable B+Tree, every index, any loaded/unloaded mix",
  "prefix sums are updated incrementally across levels",
  ["btree.go: GetByIndex, PatchByIndex, DeleteByIndex, updatePrefixSumTreeLeafToRootRecursively, arrangePrefixSumTreeRecursively"])
p("The two implementations are observationally equivalent",
  "Any SortedMap history gives the same answers on an LLRBTree and on a B+Tree of any valid order (storage not failing).",
  "every lawful compare function, every history, every valid maxKeysPerNode",
  "relational over all histories",
  ["common_api.go: SortedMap", "llrb_tree.go", "btree.go"])
p("Flush then OldBPlusTree reproduces the map",
  "If Flush succeeds, OldBPlusTree on the returned location yields a tree with the same items in the same order and the same maxKeysPerNode, provided the client's pack/unpack callbacks are inverse to each other.",
  "every reachable tree, every flush mode, every round-tripping key/value codec",
  "every tree shape, every mixture of clean, dirty and unloaded nodes",
  ["btree.go: Flush, flushNode, postNode, loadNode", "btree_api.go: OldBPlusTree"])
p("A flushed snapshot survives all later activity until it is pruned",
  "The location returned by a successful Flush stays a readable, unchanged snapshot through every later operation, failed or not, and through a crash at any callback boundary, as long as neither Prune nor Discard is called after the next modification.",
  "every later history of operations, including failing storage callbacks and a crash between any two callbacks",
  "crash points and histories are unbounded",
  ["btree.go: postNode, markNodeDirty, placeNodeOnStaleOnDiskReferenceList, pruneWhileLocked"])
p("Prune right after Flush discards nothing the flushed tree needs",
  "After a successful Flush, Prune discards only storage locations not referenced by the flushed tree: the tree remains fully readable from its returned location.",
  "every history before the Flush",
  "depends on exactly which locations became stale in the whole history",
  ["btree.go: Prune, pruneWhileLocked, placeNodeOnStaleOnDiskReferenceList"])
p("Prune never invalidates the last flushed snapshot",
  "Calling Prune at any time leaves the most recently flushed root location readable.",
  "every history, in particular modifications between Flush and Prune",
  "needs the history Flush, modify, Prune, crash",
  ["btree.go: Prune, pruneWhileLocked, markNodeDirty"])
p("Storage accounting: no location is leaked, discarded while live, or discarded twice",
  "At every moment the locations handed out by PutNode and not yet passed to DiscardNode are exactly those referenced by the current tree plus those awaiting Prune; no location is passed to DiscardNode twice and none while referenced (callbacks not failing, PutNode returning fresh locations).",
  "every history of operations, flushes and prunes",
  "exactness over the whole history",
  ["btree.go: placeNodeOnStaleOnDiskReferenceList, markNodeDirty, markNodeToBeDiscarded, pruneWhileLocked, postNode"])
p("Discard releases every location of the tree",
  "If callbacks do not fail, Discard passes to DiscardNode exactly the locations still held by the tree (referenced or awaiting Prune), each once, and removes all of the tree's nodes from the shared cache.",
  "every reachable tree in every loaded/unloaded/dirty state",
  "depends on the whole history and on which nodes are in memory",
  ["btree.go: Discard, discardNode, markNodeToBeDiscarded"])
p("Discard reports failure to release the tree's storage",
  "If some node cannot be read while discarding, so that some locations are not released, Discard returns an error.",
  "every reachable tree and every failing GetNode call",
  "needs a storage failure during Discard",
  ["btree.go: Discard, discardNode"])
p("Purging and evicting never change the map",
  "Purge(false), Purge(true), Flush(true) and any cache eviction leave the map's contents unchanged, whatever the mixture of clean and dirty nodes; Purge(true) on a tree with unflushed modifications returns an error and unloads nothing; Purge(true) on a fully flushed tree succeeds.",
  "every reachable tree and every eviction choice",
  "which nodes are clean, dirty or loaded varies over all histories",
  ["btree.go: Purge, purgeNode, Flush, flushNode, btreeNodeCacheDrainer"])
p("Flush is idempotent and complete",
  "After a successful Flush nothing is unflushed: a second Flush performs no PutNode call and returns the same location, and Purge(true) succeeds.",
  "every reachable tree",
  "must cover every dirty node whichever path dirtied it",
  ["btree.go: Flush, flushNode, postNode, markNodeClean"])
p("Read-only operations never cause writes",
  "GetByKey, GetByIndex, BisectLeft, BisectRight, Len, Validate, FetchDimensionsReport, FetchLayoutReport and a Put of a present key make no node need rewriting: a Flush after a flushed state and any number of them calls PutNode zero times and returns the same location.",
  "every flushed state and every sequence of read-only operations",
  "absence of an effect over all sequences",
  ["btree.go: GetByKey, GetByIndex, BisectLeft, BisectRight, Len, Put, loadNode"])
p("Touch marks everything for rewriting and loses nothing",
  "After a successful Touch every previously persisted location of the tree awaits Prune, the following Flush rewrites every node, and the contents are unchanged.",
  "every reachable tree",
  "all nodes in all loaded/unloaded states",
  ["btree.go: Touch, touchNode, markNodeDirty"])
p("A TouchItem sweep visits the whole tree and ends",
  "On an unmodified non-empty tree, starting at 0 and feeding back the returned index, TouchItem strictly advances, reaches exactly Len() after finitely many calls having marked every leaf for rewriting, and then returns 0; contents are unchanged.",
  "every reachable tree and every start index",
  "iteration over arbitrary leaf sizes",
  ["btree.go: TouchItem, touchLoadedNodeToRoot"])
p("A failing read leaves the map unchanged",
  "If GetNode fails during GetByKey, GetByIndex, Bisect*, Len, PatchBy*, Put, Touch, TouchItem, Validate or a report, the operation returns that error, contents are unchanged, and the operation can be retried with full effect.",
  "every reachable tree, every operation, every failing GetNode call",
  "every failure point of every operation",
  ["btree.go: loadNode, Put, PatchByKey, PatchByIndex, GetByKey, GetByIndex"])
p("A delete that fails while rebalancing loses no other item",
  "If DeleteByKey or DeleteByIndex returns an error because a sibling could not be read, then no item other than the addressed one is lost, now or after any later Flush, Purge or eviction.",
  "every reachable tree, every delete, every failing GetNode call during rebalancing",
  "needs a storage failure at the second level of a cascading merge followed by an eviction",
  ["btree.go: DeleteByKey, DeleteByIndex, rebalanceHere"])
p("A failing Flush loses nothing and can be retried",
  "If PutNode fails during Flush, the error is returned, the map's contents are unchanged and a later successful Flush yields a correct snapshot.",
  "every reachable tree and every failing PutNode call",
  "every failure point inside the post-order walk, with and without purging",
  ["btree.go: Flush, flushNode, postNode"])
p("Node encoding round-trips at byte level",
  "The bytes written for a node decode to the same node (items, root and leaf flags, maxKeysPerNode, every key, value and child reference in order), consume the whole buffer, and bytes with trailing garbage are rejected.",
  "every node content and every round-tripping key/value codec",
  "unbounded payloads",
  ["btree.go: postNode, loadNode, onDiskNodeStruct, onDiskReferenceToNodeStruct"])
p("Node cache bookkeeping is exact",
  "At every operation boundary Stats().CleanLRUItems and DirtyLRUItems are exactly the numbers of in-memory clean and dirty nodes of all trees sharing the cache, and the two LRU lists are well-formed lists of exactly those nodes.",
  "every interleaving of operations of any number of trees and of the drainer",
  "doubly-linked list surgery with eight cases per transition over all histories",
  ["btree.go: markNodeUsed, markNodeClean, markNodeDirty, markNodeEvicted, markNodeToBeDiscarded, Stats"])
p("The drainer evicts only unmodified nodes, never panics and stops at the low limit",
  "Whatever the interleaving, the background drainer never evicts a dirty node, never panics, and when it stops either no clean node is cached or the number of cached nodes is at most EvictLowLimit; run without interference it stops after finitely many iterations.",
  "every schedule of operations and drainer steps",
  "schedules are unbounded; the drainer re-validates its victim after re-acquiring locks",
  ["btree.go: btreeNodeCacheDrainer, purgeNode, UpdateLimits, markNodeClean"])
p("Trees sharing a cache do not affect each other",
  "An operation on one B+Tree never changes the contents, structure or persisted nodes of another B+Tree sharing the same cache.",
  "every history over any number of trees sharing a cache",
  "frame property over all histories",
  ["btree.go: btreeNodeCacheStruct, markNode*"])
p("The drainer always makes progress",
  "Whenever the drainer runs and does not stop, each of its iterations that finds its victim still clean evicts at least one node.",
  "every reachable state of trees and cache, including after Discard of one of the trees",
  "needs a failed Discard followed by cache pressure",
  ["btree.go: btreeNodeCacheDrainer, Discard, markNodeEvicted"])
p("The cache limit is enforced",
  "Whenever more than EvictHighLimit nodes are cached and at least one of them is clean, a drainer is active.",
  "every history",
  "depends on which transition crosses the limit",
  ["btree.go: markNodeClean, markNodeDirty, UpdateLimits"])
p("FetchLayoutReport is exact",
  "On a flushed tree, FetchLayoutReport maps each object number other than 0 to the total bytes of the tree's nodes stored in that object, and nothing else.",
  "every flushed tree, any assignment of nodes to objects",
  "all tree shapes and layouts",
  ["btree.go: FetchLayoutReport, updateLayoutReport"])
p("FetchDimensionsReport is exact",
  "FetchDimensionsReport returns maxKeysPerNode, half of it, Len, and the number of levels of the tree.",
  "every reachable tree",
  "all tree shapes",
  ["btree.go: FetchDimensionsReport"])
p("No deadlock",
  "No set of concurrent operations on any number of trees sharing a cache, together with the drainer, can reach a state where every unfinished thread waits for a mutex (client callbacks not re-entering the tree).",
  "every number of threads, every schedule",
  "unbounded schedules",
  ["btree.go: Lock/Unlock uses, btreeNodeCacheDrainer", "llrb_tree.go: Lock/Unlock uses"])
p("Concurrent use is linearizable",
  "Concurrent SortedMap calls on one map take effect one at a time in some order consistent with real time; the only exceptions are calls made without the mutex (LLRBTree.Reset, BPlusTree.FetchLocation).",
  "every schedule of any number of threads",
  "unbounded schedules",
  ["llrb_tree.go: Lock/Unlock uses, Reset", "btree.go: Lock/Unlock uses, FetchLocation"])
p("NewBPlusTree accepts exactly the documented orders",
  "NewBPlusTree panics if and only if maxKeysPerNode is odd or less than four; otherwise the new tree is empty and valid.",
  "all uint64 values of maxKeysPerNode",
  "all 2^64 arguments",
  ["btree_api.go: NewBPlusTree"])
p("A compare error never corrupts the B+Tree",
  "If the compare function rejects exactly the keys outside a valid set, a keyed operation with an invalid key on a non-empty B+Tree returns the error and leaves the contents unchanged.",
  "every reachable non-empty B+Tree, every invalid key, every keyed operation",
  "error points depend on shape",
  ["btree.go: Put, GetByKey, PatchByKey, DeleteByKey, BisectLeft, BisectRight"])
with open("properties.jsonl","w") as f:
    for x in P: f.write(json.dumps(x)+"\n")
print(len(P))

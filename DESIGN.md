# Design of the formal model of NVIDIA/sortedmap

Contents: layers; how statements are phrased; what is modelled, file by file; simplifications;
findings; plan per property; trusted base.

## Layers

1. **Compare functions** (`Verif/Cmp.lean`): the seven `Compare*` functions of `common_api.go`
   over dynamically typed keys, with 64-bit wrap-around for `CompareInt`.
2. **LLRB** (`Verif/LLRB/*.lean`): `llrb_tree.go`, `llrb_validate.go`. A node is owned by exactly
   one parent and there are no parent pointers, so a Go tree of pointers *is* a value of an
   inductive type; the in-place updates of the Go code become returned trees. Nil dereferences
   are an explicit outcome (`none`); recursion that is not structural carries fuel and running
   out of it is the same outcome, which the theorems exclude.
3. **B+Tree** (`Verif/BTree/Model.lean`, `Lru.lean`, `Drainer.lean`): `btree.go`, `btree_api.go`,
   `btree_validate.go`. Nodes have parent pointers, prefix-sum pointers and LRU links, so this
   is a *heap model*: a `World` holds the node structs, prefix-sum fields, cache elements, tree
   structs, the cache struct, the client's storage, the callback oracle and a log of DiscardNode
   calls. Every Go function is an action `World -> Out x World`; changes made before an error
   persist, as in Go. A panic, a nil dereference and a loop that does not end are `Out.fatal`.
4. **Bytes** (`Verif/BTree/Codec.lean`): what postNode hands to PutNode and loadNode gets from
   GetNode, byte by byte; proved equal to layer 3's parsed nodes.
5. **Locks** (`Verif/Conc/*.lean`): which mutexes every API function takes in which order
   (`Locks.lean`); calls as sequences of single accesses under a mutex, interleaved arbitrarily
   (`Lin.lean`, `Split.lean`); several maps with a mutex each (`Many.lean`), whose calls touch only
   what belongs to their map (`Own.lean`, `Conf.lean`, `ConfApi.lean`, `ManyMaps.lean`).
6. **Specifications**: `Verif/Spec.lean` (a sorted association list and the answers of the
   `SortedMap` methods on it), `Verif/Api.lean` (the whole B+Tree API: several maps, snapshots,
   storage locations, restarts, failing callbacks). They mention no tree, node or pointer; Api
   takes from the model only the types of locations, reports and results.
7. **Properties** (`Verif/Props/*.lean`): the theorems `Cxx_*` with examples showing that their
   hypotheses can be met. `MANIFEST.json` maps properties to theorems (`tools/mkmanifest.py`).

The files between (Assert, Ghost, State, Prim, Load, Descend, Insert, Delete, Flush, ...) are
proofs: a separation-style assertion (`I`) says which cells, cache entries and stored nodes a
ghost tree (`Gt`) takes up; there is one lemma per Go function; `Scene.lean` puts several trees
together and proves that every call obeys `Api.Step`.

`Compare` is a function `K -> K -> Except Err Int` of which only the sign is used. `Lawful`: on
a set of valid keys it never errs and its sign is a total preorder (keys that compare equal need
not be identical); if one of the keys is invalid it errs.

## How the statements about the B+Tree are phrased

* `Setup`: sizes of encoded nodes, and for every map its compare function, maxKeysPerNode (even,
  at least 4) and whether it uses the cache. Everything is for all setups.
* A history `cs` is a list of calls, each with the behaviour of the callbacks during it (`Env`):
  which GetNode, pack, unpack, DiscardNode calls fail, and for each PutNode call whether it fails or
  which location it chooses. Evictions by the drainer of any node at any moment and restarts of
  the process are calls too, so a theorem over all histories is one over all evictions, faults
  and crashes. A crash in the middle of a call is covered as follows: what the client has stored
  changes only in PutNode and DiscardNode calls, and a call in which every PutNode from some
  point on fails leaves on disk what the call interrupted at that point would have left.
* `Hist S fuel cs`: the calls may be made (`Api.Pre`: maps are opened before use, a key put into
  an empty map is valid, ...) and no deletion has failed since the last restart - after those the
  code gives no guarantee, see findings 4 and 5. A failing Prune may be part of a history; only,
  the same map is not pruned again nor discarded until it is opened anew (finding 6). `S.Clear
  fuel cs t`: no Prune of `t` has failed since it was opened; asked where that matters. `fuel` is the bound on pointer
  chasing; the theorems hold for every `fuel > max + number of calls + 2`, i.e. the code
  terminates.
* `S.Has fuel w t l`: Len and GetByIndex show the items `l`. `Opened`, `Stored`: the map is open,
  its location is such and such. These are statements about API answers, not about nodes.
* C17, C38, C50, C52 speak of nodes and cache lists; they do so by definitions that read the
  heap directly (`Shape.lean`), not by the ghost trees of the proofs.
* C49 and C51, C53 partly: any state at all, reachable or not.

## What is modelled

| file | modelled | not modelled |
|------|----------|--------------|
| common_api.go | all compare functions; the SortedMap interface as `Spec.Op` | - |
| llrb_tree.go, llrb_validate.go, llrb_tree_api.go | everything, Reset included | - |
| llrb_dump.go | Dump: the values printed, line by line (`LLRB/Dump.lean`) | the text around them |
| btree.go | every function | - |
| btree_api.go | NewBPlusTree, OldBPlusTree; NewBPlusTreeCache as UpdateLimits on an empty cache; callbacks as `Env` | the type switch on the cache argument |
| btree_validate.go | everything | - |
| btree_dump.go | Dump: the values printed, line by line (`BTree/Dump.lean`) | addresses (`%p`), the text around the values |

Functions written out several times in Go for the clean and the dirty list, for leaf and inner
nodes or for left and right siblings are one definition with an argument where the copies are
identical; every definition cites its lines.

## Simplifications

* Counters kept as `uint64`/`int` are unbounded except where a subtraction could wrap (`sub64`)
  and in the compare functions. Sizes in memory never reach 2^63.
* What PutNode stores is the parsed node in layer 3; layer 4 relates it to bytes under `Fits`
  (stored numbers are below 2^64) and `Codec.Inverse` (the client's key and value codec
  round-trips and consumes what it wrote). `cstruct`, an external package, is taken to pack
  little-endian 64-bit words and one-byte booleans in field order without padding.
* PutNode either fails, storing nothing, or returns a location of nonzero length that is not in
  use. GetNode either fails or returns what was stored. DiscardNode either fails, discarding
  nothing, or frees the location. Every call of a packing or unpacking function may fail.
* The stale-reference Go map is a duplicate-free list. The order in which Prune and Discard meet
  its entries is chosen by the environment (`Env.order`, `ranged`): all theorems hold for all
  orders.
* All maps of a world share at most one cache.
* In `Api`, every location belongs to at most one open map, so `Pre` excludes opening a location
  of an open map (the code does not guard against it). C59 deals with that separately. Using a
  map after Discard is excluded.
* Calls are atomic in layer 3. Layer 5 discharges this: C46 shows that calls on an LLRB tree, and
  calls on any number of B+Trees sharing a cache together with the drainer and UpdateLimits, in
  steps as small as single reads and writes, answer as if made one at a time; a map is not
  affected by what happens to the others meanwhile. Each section under the cache mutex is one
  step, as is each callback. For the B+Trees this supposes that storage places are not shared:
  it is laid down (`Areas`) which places a map writes to and which it reads, no other map reads where
  one writes, and PutNode, called for a map, answers with places it writes to, so a place once used
  by one map is never handed to another. Places nobody writes to any more may be read by several
  maps (C59); those must not be pruned or discarded. A map must
  not be used by other threads while it is being discarded. FetchLocation and LLRB Reset take no
  mutex (findings 15, 16) and are outside the theorems (a Reset that does not overlap another call is covered by
  C57), and so is the line of Dump about the cache's
  fields, which are read without the cache's mutex. The Go memory model is not modelled: a single
  access is atomic.
* Node addresses are `(map, number)`; each map has its own supply. `alloc` gives zeroed memory.
  initNodeAsEvicted is a panic in the model if the node is on a cache list; in Go its
  neighbours would go on pointing to it. It never is (C38).
* `time.Time` is a wall reading and optionally a monotonic reading, as documented.

## Findings

Where a property as a user would want it is false, a theorem shows it false on a concrete history
and another (suffix `_partial`) what remains.

1. `CompareInt` subtracts; the result wraps for operands more than 2^63 apart, so it is no order
   (C12).
2. `CompareTime` is not transitive on times of which only some have a monotonic reading (C13).
3. Put of a key the compare function rejects succeeds on an empty map, in both implementations;
   the map is unusable afterwards (C10).
4. B+Tree deletion whose rebalancing recursion fails to load a sibling returns before the merged
   nodes are marked (btree.go:1640-1700): after the next Flush and reopening, items other than
   the deleted one are lost, and GetByIndex may panic (C35, C16).
5. Such a failing deletion has already removed the item: DeleteByKey returns (true, err),
   DeleteByIndex (false, err).
6. Prune interrupted by a failing DiscardNode keeps the locations already discarded on its list:
   a retry passes them to DiscardNode again, hence fails if DiscardNode refuses them, and discards
   what has been stored there since if PutNode has reused them: the map is then lost although
   every call in between, and the retry, succeeded (C56).
7. Discard ignores the error of discardNode and reports success although storage is still taken
   (C28); nodes it did not reach stay in the cache with a tree that has no cache, and the drainer
   then loops forever holding on to them (C41).
8. Prune after a modification and before the next Flush discards locations the last flushed
   snapshot is made of; a crash then loses everything (C25).
9. The cache limit is not enforced by calls that only mark nodes dirty (C42).
10. Validate of a B+Tree checks the left prefix-sum subtree twice and the right one never, drops
    the left one's error when there is no right one, and would dereference nil on a right child
    without left child. LLRB Validate checks neither order nor balance (C49).
11. PatchByKey of an absent key marks the path dirty. TouchItem beyond the end returns 0 rather
    than an end marker. Dump reads the cache's fields without the cache's mutex.
12. DeleteByKey pushes nothing on parentIndexStack for an inner node without keys; harmless, as
    there are none (C17).
13. Purge(true) with modified nodes in memory returns an error and may have dropped some clean
    nodes; Validate, FetchLayoutReport, Dump and OldBPlusTree load nodes without counting a miss.

14. Dump of a B+Tree ignores the error of dumpNode for children (btree_dump.go:130, 161): it
    returns nil although a node could not be read or a callback failed below the root (C54).
15. LLRB Reset takes no mutex: a Put of a new key, having set the root, reads it again and
    dereferences nil if Reset was called in between, whatever the map holds (C57).
16. FetchLocation takes no mutex: called during a call that changes the map it may return the
    object number of a location with offset and length zero (C58).
17. A map opened from a snapshot of a map that is still open loses its nodes when the other one is
    pruned or discarded, and the other way round (C59).

## Plan per property

| id | modelled by | proof |
|----|-------------|-------|
| C01-C08 | LLRB | red-black and subtree-size invariants by induction over every operation; refinement to the sorted list; induction over histories |
| C09 | LLRB with erring compare | per operation: error returned, contents unchanged |
| C10 | LLRB and B+Tree | refuted by witnesses; `_partial`: true on every non-empty map |
| C11-C14 | Cmp | case analysis; C12, C13 refuted by witnesses with `_partial` |
| C15, C16, C19, C20, C48 | B+Tree heap | one triple per Go function, `Scene.step` for calls, induction over histories |
| C17 | `Shape.lean` | occupancy and height are part of the invariant |
| C18, C49 | Validate | from the invariant; inversion in an arbitrary state |
| C21 | C01 + C15 | composition |
| C22-C26, C29-C32, C36, C40, C43 | heap with storage | `Api.Step`; consequences proved from the specification alone (`Props/Run`, `Snap`, `Same`) |
| C27, C28 | Discard | triple; refuted by witness for the failing read |
| C33 | TouchItem | triple, induction on remaining items |
| C34, C35 | failing oracle | error postconditions; C35 refuted by witness |
| C37 | bytes | induction on the payload |
| C61 | bytes cut short | where the bytes end decides which unpack call fails; the run is compared with one on all bytes in which that call fails |
| C62 | memory after Flush(true) and Purge | the nodes in memory as a function of the tree; purging keeps the dirty ones of them, by induction on the tree |
| C38, C39, C41, C42, C50 | cache lists, drainer | doubly-linked-list invariant; C41, C42 refuted by witnesses; abstract queue for C50 |
| C44, C52 | reports | induction on the ghost tree |
| C45 | lock programs | lock ranks |
| C46 | critical sections in small steps | linearization at the release; commuting with the cache's noise |
| C47 | NewBPlusTree | arithmetic |
| C57, C58 | single accesses to the root | interleavings given explicitly; C57 `_partial`: such a Reset is like one with the mutex |
| C54 | Dump | induction on the tree; refuted by witness for failing callbacks |
| C55 | Limits and counters of the cache | every basic action of the model keeps the limits and lowers no counter, hence every composition of them |
| C40 (`C40_alone`, `C40_broken_neighbours`) | all maps in one heap | confinement: every basic action of a call on a map reads and writes that map's part only; induction over the history with the other maps' calls left out |
| C59 | two maps reading the same places | confinement with places read by several maps; the further map compared with one opened after a restart |
| C56 | Prune with a failing DiscardNode | `Api.Step` with the count of failures; retry refuted by witness |
| C60 | number of nodes not stored | counted in the ghost tree; each step of Insert, Delete and Flush bounds it |
| C51, C53 | counters | a predicate on actions, preserved by bind; bounds by height; for Touch and Discard (for Validate, FetchLayoutReport and Dump alike, subtree by subtree): reads so far plus nodes on disk less unchanged nodes in memory never grow |

## Testing the theorems

`seeded/LOG.jsonl`: realistic bugs seeded into a copy of the model, one per line, with the
theorems that fail. Because a failing lemma only shows that a *proof* broke, each model mutant
is also run: a randomized driver executes histories on it and compares with the specification,
which tells whether a property's *statement* is false of the mutant (`witness`).
Mutants of the code on bytes (round 5) are run on every prefix of the bytes of five nodes.
`failed` lists the theorems whose proofs rest on a lemma that no longer checks
(`failed_lemmas`), so it is an upper bound: `witnessed_claims` are the properties seen to be
false. Where the driver could not decide (no witness, or no verdict of the build), `remark` says so.

## Trusted base

* Lean's kernel; axioms `propext`, `Classical.choice`, `Quot.sound` only (some examples and
  witnesses are checked by `decide` in the kernel). No axioms of our own, no `sorry`,
  `native_decide` or `bv_decide`.
* The hand translation from Go to Lean, function by function, cited in comments; the
  simplifications above.
* `cstruct`, and Go's `time`, `strings`, `bytes`, `sync` packages: their documented meaning.
* The client: callbacks as described under simplifications, a lawful compare function, and
  callbacks that do not call back into the package (C45).

import Mathlib.Logic.Function.Basic

/-! The mutexes of the package: which one every function takes while holding which. -/

namespace SM.Conc

/-- The mutexes. `tree τ`: the one in btreeTreeStruct (btree.go:97-107); `llrb i`: the one in an llrbTreeStruct (llrb_tree.go:33-38), be it a
client's LLRBTree or the kvLLRB of a node of a B+Tree (btree.go:56); `cache c`: the one in btreeNodeCacheStruct (btree.go:28-43). -/
inductive Mutex where
  | tree (τ : Nat)
  | llrb (i : Nat)
  | cache (c : Nat)
  deriving DecidableEq

/-- What a thread does next, as far as mutexes are concerned: `step` is anything else, callbacks included. -/
inductive Act where
  | lock (m : Mutex)
  | unlock (m : Mutex)
  | step
  deriving DecidableEq

/-- The lock behaviour of a piece of code: an `if` is `or`, a `for` or a recursion is `star`, `any` is a choice the code makes by data (which node). -/
inductive Code where
  | skip
  | act (a : Act)
  | seq (p q : Code)
  | or (p q : Code)
  | any (f : Nat → Code)
  | star (p : Code)

/-- The sequences of actions a piece of code can go through. -/
inductive Code.Does : Code → List Act → Prop where
  | skip : Does .skip []
  | act (a : Act) : Does (.act a) [a]
  | seq {p q : Code} {l l' : List Act} : Does p l → Does q l' → Does (.seq p q) (l ++ l')
  | left {p q : Code} {l : List Act} : Does p l → Does (.or p q) l
  | right {p q : Code} {l : List Act} : Does q l → Does (.or p q) l
  | any {f : Nat → Code} (i : Nat) {l : List Act} : Does (f i) l → Does (.any f) l
  | done {p : Code} : Does (.star p) []
  | more {p : Code} {l l' : List Act} : Does p l → Does (.star p) l' → Does (.star p) (l ++ l')

/-- `Lock()`, the code, `Unlock()`; the code is `inside` followed by any return, so `defer Unlock()` is this as well. -/
def guarded (m : Mutex) (inside : Code) : Code := .seq (.act (.lock m)) (.seq inside (.act (.unlock m)))

/-- Work that touches no mutex: local computation, reads and writes of fields, callbacks. -/
def work : Code := .star (.act .step)

/-- Every method of llrbTreeStruct other than Reset: Lock, the work (which calls only unlocked helpers and the client's Compare), Unlock
(llrb_tree.go:42-454, llrb_validate.go:8-15, llrb_dump.go:11-13). -/
def llrbCall (i : Nat) : Code := guarded (.llrb i) work

/-- LLRBTree.Reset takes no mutex (llrb_tree.go:456-458). -/
def llrbReset : Code := work

/-- incCacheHits, incCacheMisses, markNodeUsed, markNodeClean, markNodeDirty, markNodeEvicted, markNodeToBeDiscarded
(btree.go:1998-2430): the mutex of the cache, if there is a cache. -/
def cacheFn : Option Nat → Code
  | none => work
  | some c => guarded (.cache c) work

/-- What the functions below the API do, in whatever order and depth they call one another: touch the LLRBs of nodes, call the functions of the
cache, and work. None of them touches the mutex of a tree or starts a call on another map. (pruneWhileLocked, discardNode, insertHere,
rebalanceHere, flushNode, purgeNode, initNodeAsEvicted, placeNodeOnStaleOnDiskReferenceList, touchNode, touchLoadedNodeToRoot,
arrangePrefixSumTree..., updatePrefixSumTree..., loadNode, postNode, updateLayoutReport: btree.go:1067-1996, 2432-2478, 2523-3115; validateNode...:
btree_validate.go; dumpNode...: btree_dump.go.) -/
def treeWork (cache : Option Nat) : Code := .star (.or (.any llrbCall) (.or (cacheFn cache) work))

/-- Every method of btreeTreeStruct other than FetchLocation: Lock, work, Unlock (btree.go:111-1035, btree_validate.go:8-15, btree_dump.go:8-15). -/
def treeCall (τ : Nat) (cache : Option Nat) : Code := guarded (.tree τ) (treeWork cache)

/-- FetchLocation takes no mutex (btree.go:820-826). -/
def fetchLocation : Code := work

/-- NewBPlusTree and OldBPlusTree work on a tree nobody else knows, without its mutex (btree_api.go:93-171). -/
def openTree (cache : Option Nat) : Code := treeWork cache

/-- Stats and UpdateLimits (btree.go:1040-1065). -/
def cacheCall (c : Nat) : Code := guarded (.cache c) work

/-- The drainer of a cache (btree.go:2481-2521): it lets go of the mutex of the cache before it takes that of the tree of the node it chose. -/
def drainerCode (c : Nat) : Code :=
  .seq (.star (.seq (guarded (.cache c) work)
    (.any fun τ => guarded (.tree τ) (.or .skip (treeWork (some c)))))) (guarded (.cache c) work)

/-- What a thread may do: any calls on any maps and caches, or be a drainer. -/
inductive Thread : List Act → Prop where
  | nil : Thread []
  | llrb (i : Nat) {l l' : List Act} : (llrbCall i).Does l → Thread l' → Thread (l ++ l')
  | reset {l l' : List Act} : llrbReset.Does l → Thread l' → Thread (l ++ l')
  | tree (τ : Nat) (cache : Option Nat) {l l' : List Act} : (treeCall τ cache).Does l → Thread l' → Thread (l ++ l')
  | location {l l' : List Act} : fetchLocation.Does l → Thread l' → Thread (l ++ l')
  | opening (cache : Option Nat) {l l' : List Act} : (openTree cache).Does l → Thread l' → Thread (l ++ l')
  | cache (c : Nat) {l l' : List Act} : (cacheCall c).Does l → Thread l' → Thread (l ++ l')
  | drainer (c : Nat) {l l' : List Act} : (drainerCode c).Does l → Thread l' → Thread (l ++ l')

/-- All threads: what each still has to do, and who holds each mutex. -/
structure State where
  todo : Nat → List Act
  owner : Mutex → Option Nat

/-- Go's sync.Mutex: Lock waits until the mutex is free - the thread that holds it waits as any other; Unlock frees it. -/
inductive Step : State → State → Prop where
  | lock {s : State} {t : Nat} {m : Mutex} {l : List Act} : s.todo t = .lock m :: l → s.owner m = none →
      Step s ⟨Function.update s.todo t l, Function.update s.owner m (some t)⟩
  | unlock {s : State} {t : Nat} {m : Mutex} {l : List Act} : s.todo t = .unlock m :: l → s.owner m ≠ none →
      Step s ⟨Function.update s.todo t l, Function.update s.owner m none⟩
  | step {s : State} {t : Nat} {l : List Act} : s.todo t = .step :: l →
      Step s ⟨Function.update s.todo t l, s.owner⟩

/-- Any number of steps. -/
inductive Steps : State → State → Prop where
  | refl (s : State) : Steps s s
  | tail {a b c : State} : Steps a b → Step b c → Steps a c

end SM.Conc

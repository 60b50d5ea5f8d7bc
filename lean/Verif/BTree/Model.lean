import Verif.BTree.Lru
import Verif.LLRB.Model
import Verif.Spec

/-!
Model of the B+Tree: /repo/btree.go, /repo/btree_validate.go, /repo/btree_api.go.

The heap of node structs is explicit: pointers are pairs of numbers, fields are read and assigned one by
one, parent pointers, prefix-sum pointers and the cache lists are all there. A function of the
Go code is an action `M α`: it reads and changes the `World`, and either returns, returns an
error (the changes made so far persist), or panics / does not terminate (`Out.fatal`).

Loops and recursion that follow pointers carry a fuel argument; running out of fuel is
`Out.fatal`, so "does not end in `fatal`" includes termination.

Simplifications, all of them:
* counters that Go keeps as `uint64`/`int` are `Nat`/`Int`; subtraction on a `uint64` wraps
  (`sub64`), addition is unbounded;
* what `PutNode` stores is the parsed on-disk node (`DiskNode`), not its bytes; the byte format
  is modelled in `Verif/BTree/Codec.lean`;
* the client's callbacks are an environment (`Env`): an oracle decides which calls fail and where
  a node is put. `PutNode` either fails or returns a location that is not in use;
* `staleOnDiskReferencesList`, a Go map, is a duplicate-free list; nil and empty are the same;
* the trees of a world share at most one cache; a tree may also have none;
* the mutexes are not here (see `Verif/Conc`): a call is one atomic action;
* error texts are line numbers; Dump is in `Verif/BTree/Dump.lean`;
* the address of a new node struct is a pair of its tree and a number: every tree has addresses of
  its own, and none is used twice.
-/

namespace SM.BT

/-- Identity of a tree struct. -/
abbrev TreeId := Nat

/-- An on-disk location: objectNumber, objectOffset, objectLength (btree.go:47-49, 91-95). -/
structure Ref where
  num : Nat
  off : Nat
  len : Nat
  deriving DecidableEq, Repr

/-- The three fields zeroed (btree.go:2453-2455). -/
def Ref.zero : Ref := ⟨0, 0, 0⟩

/-- What a node's kvLLRB stores: an item's value in a leaf, a pointer to a child in a non-leaf
(btree.go:57-58). -/
inductive Val (V : Type) where
  | item (v : V)
  | node (i : Id)

/-- btree.go:45-60 `btreeNodeStruct`, without the cache element and the prefix-sum fields. -/
structure NodeS (K V : Type) where
  ref : Ref
  items : Nat
  loaded : Bool
  dirty : Bool
  root : Bool
  leaf : Bool
  tree : TreeId
  parent : Option Id
  kv : Option (LLRB.Tree K (Val V))
  left : Option Id
  psRoot : Option Id

/-- btree.go:61-66: the fields of a node that belong to its parent's prefix-sum tree. -/
structure PSum where
  items : Nat
  kvIndex : Int
  parent : Option Id
  left : Option Id
  right : Option Id

/-- btree.go:69-89 as parsed: `onDiskNodeStruct` with its payload; a non-leaf has its first
child's reference and Items apart, and key, reference, Items for the others. -/
inductive DiskBody (K V : Type) where
  | leaf (l : List (K × V))
  | inner (c0 : Ref × Nat) (cs : List (K × (Ref × Nat)))
  /-- a non-leaf with no children (numChildren = 0) -/
  | none

/-- btree.go:80-89; `max` is the maxKeysPerNode stored with a root. -/
structure DiskNode (K V : Type) where
  items : Nat
  root : Bool
  max : Nat
  body : DiskBody K V

/-- btree.go:28-43 apart from the lists: limits, counters, `drainerActive`; `drainers` counts
the drainer goroutines started. -/
structure Ctl where
  low : Nat
  high : Nat
  active : Bool
  hits : Nat
  misses : Nat
  drainers : Nat

/-- btree.go:97-107 `btreeTreeStruct`; `cached` is `nil != tree.nodeCache`. -/
structure TreeS where
  min : Nat
  max : Nat
  root : Option Id
  stale : List Ref
  cached : Bool

/-- The client's side: which callback calls fail and where PutNode puts a node, by number of the
call; and how often each has been called. `order` is the Go runtime's part: in which order a loop
over a map (btree.go:1075) meets its keys, see `ranged`. -/
structure Env where
  getFails : Nat → Bool
  unpackFails : Nat → Bool
  packFails : Nat → Bool
  putLoc : Nat → Option (Nat × Nat)
  discardFails : Nat → Bool
  order : Nat → List Ref → List Ref
  gets : Nat
  unpacks : Nat
  packs : Nat
  puts : Nat
  discards : Nat

/-- The whole state: heap, cache, trees, disk, client. `log` lists the successful DiscardNode
calls, latest first. -/
structure World (K V : Type) where
  node : Id → NodeS K V
  ps : Id → PSum
  lru : LruS
  ctl : Ctl
  trees : TreeId → TreeS
  next : TreeId → Nat
  disk : Ref → Option (DiskNode K V)
  env : Env
  log : List Ref

/-- How a call ends: a result, an error, or a panic / no termination. -/
inductive Out (α : Type) where
  | ok (a : α)
  | err (e : Err)
  | fatal
  deriving DecidableEq, Repr

/-- Actions. -/
def M (K V : Type) (α : Type) := World K V → Out α × World K V

namespace M
variable {K V : Type} {α β : Type}

/-- Return. -/
protected def pure (a : α) : M K V α := fun w => (.ok a, w)

/-- Sequence; an error or panic of the first ends the whole. -/
protected def bind (m : M K V α) (f : α → M K V β) : M K V β := fun w =>
  match m w with
  | (.ok a, w') => f a w'
  | (.err e, w') => (.err e, w')
  | (.fatal, w') => (.fatal, w')

instance : Monad (M K V) where
  pure := M.pure
  bind := M.bind

/-- Return an error. -/
def throw (e : Err) : M K V α := fun w => (.err e, w)

/-- Panic, or no termination. -/
def fatal : M K V α := fun w => (.fatal, w)

/-- Call and look at the error. -/
def attempt (m : M K V α) : M K V (Except Err α) := fun w =>
  match m w with
  | (.ok a, w') => (.ok (.ok a), w')
  | (.err e, w') => (.ok (.error e), w')
  | (.fatal, w') => (.fatal, w')

/-- Panic on `none` (nil dereference, failed type assertion). -/
def deref : Option α → M K V α
  | some a => pure a
  | none => fatal

/-- `if !ok { err = fmt.Errorf(...); return }`, at a line of btree.go. -/
def must (line : Nat) : Option α → M K V α
  | some a => pure a
  | none => throw (.logic line)

/-- The same for a plain `ok`. -/
def check (line : Nat) (ok : Bool) : M K V Unit := if ok then pure () else throw (.logic line)

end M

section
variable {K V : Type}

/-- Read a node struct. -/
def getN (i : Id) : M K V (NodeS K V) := fun w => (.ok (w.node i), w)

/-- Assign fields of a node struct. -/
def modN (i : Id) (f : NodeS K V → NodeS K V) : M K V Unit := fun w =>
  (.ok (), { w with node := upd w.node i (f (w.node i)) })

/-- Read a node's prefix-sum fields. -/
def getP (i : Id) : M K V PSum := fun w => (.ok (w.ps i), w)

/-- Assign them. -/
def modP (i : Id) (f : PSum → PSum) : M K V Unit := fun w =>
  (.ok (), { w with ps := upd w.ps i (f (w.ps i)) })

/-- Read a tree struct. -/
def getT (τ : TreeId) : M K V TreeS := fun w => (.ok (w.trees τ), w)

/-- Assign fields of a tree struct. -/
def modT (τ : TreeId) (f : TreeS → TreeS) : M K V Unit := fun w =>
  (.ok (), { w with trees := upd w.trees τ (f (w.trees τ)) })

/-- The address the next node struct of a tree gets. -/
def World.addr (w : World K V) (τ : TreeId) : Id := (τ, w.next τ)

/-- `&btreeNodeStruct{...}`: a new struct, prefix-sum fields zero. Its address is any that is not in use; here every tree has a
supply of its own. The cache element of an address never given away before is zero already (`LruS.empty`), so that it need not be
cleared. -/
def alloc (n : NodeS K V) : M K V Id := fun w =>
  (.ok (w.addr n.tree),
    { w with
      next := upd w.next n.tree (w.next n.tree + 1)
      node := upd w.node (w.addr n.tree) n
      ps := upd w.ps (w.addr n.tree) { items := 0, kvIndex := 0, parent := none, left := none, right := none } })

/-- `tree.root` where it is dereferenced. -/
def rootOf (τ : TreeId) : M K V Id := do M.deref (← getT τ).root

/-! ### The kvLLRB of a node: the LLRB model, whose calls go through an interface value that is
nil in an unloaded node. -/

/-- The tree behind `node.kvLLRB`; calling a method on nil panics. -/
def kvOf (i : Id) : M K V (LLRB.Tree K (Val V)) := do M.deref (← getN i).kv

/-- Assign the tree behind `node.kvLLRB` (its methods work in place). -/
def setKv (i : Id) (t : LLRB.Tree K (Val V)) : M K V Unit :=
  modN i fun n => { n with kv := some t }

/-- `node.kvLLRB.Len()` -/
def kvLen (i : Id) : M K V Int := do return (← kvOf i).len

/-- `node.kvLLRB.GetByIndex(index)`: `none` is `ok == false`. Never returns an error. -/
def kvGetByIndex (i : Id) (index : Int) : M K V (Option (K × Val V)) := do
  M.deref (LLRB.Tree.getByIndex index (← kvOf i))

/-- Hand on the result of an in-place LLRB call: the tree is stored, then `err` decides. -/
def kvFinish (i : Id) (r : Option ((Bool × Option Err) × LLRB.Tree K (Val V))) : M K V Bool :=
  match r with
  | none => M.fatal
  | some ((ok, e), t) => do
      setKv i t
      match e with
      | some e => M.throw e
      | none => pure ok

/-- `ok, err = node.kvLLRB.Put(key, value)`, with `if nil != err { return }`. -/
def kvPut (cmp : Compare K) (i : Id) (k : K) (v : Val V) : M K V Bool := do
  kvFinish i (LLRB.Tree.put cmp k v (← kvOf i))

/-- `node.kvLLRB.Put(key, value)` with both results ignored. -/
def kvPutIgnore (cmp : Compare K) (i : Id) (k : K) (v : Val V) : M K V Unit := do
  let _ ← M.attempt (kvPut cmp i k v)
  return ()

/-- `ok, err = node.kvLLRB.DeleteByIndex(index)`, with `if nil != err { return }`. -/
def kvDeleteByIndex (cmp : Compare K) (i : Id) (index : Int) : M K V Bool := do
  kvFinish i (LLRB.Tree.deleteByIndex cmp index (← kvOf i))

/-- `index, _, err = node.kvLLRB.BisectLeft(key)` and the like: hand on an error. -/
def liftBisect (r : Option (Int × Bool × Option Err)) : M K V (Int × Bool) :=
  match r with
  | none => M.fatal
  | some (_, _, some e) => M.throw e
  | some (i, f, none) => pure (i, f)

/-- The type assertion `value.(*btreeNodeStruct)`. -/
def asNode : Val V → M K V Id
  | .node i => pure i
  | .item _ => M.fatal

/-- `_, value, _, _ = node.kvLLRB.GetByIndex(index)` then `value.(*btreeNodeStruct)` (the value is
nil, and the assertion panics, if there is no such index). -/
def kvChild (i : Id) (index : Int) : M K V Id := do
  match ← kvGetByIndex i index with
  | none => M.fatal
  | some (_, v) => asNode v

/-- The same with `ok` checked. -/
def kvChildOk (line : Nat) (i : Id) (index : Int) : M K V Id := do
  let (_, v) ← M.must line (← kvGetByIndex i index)
  asNode v

/-! ### Cache -/

/-- Run a step of the cache lists if the tree has a cache; `none` panics. -/
def onLru (τ : TreeId) (f : LruS → Option LruS) : M K V Unit := fun w =>
  if (w.trees τ).cached then
    match f w.lru with
    | some s => (.ok (), { w with lru := s })
    | none => (.fatal, w)
  else (.ok (), w)

/-- Change limits or counters if the tree has a cache. -/
def onCtl (τ : TreeId) (f : Ctl → Ctl) : M K V Unit := fun w =>
  if (w.trees τ).cached then (.ok (), { w with ctl := f w.ctl }) else (.ok (), w)

/-- btree.go:1990-1996 `initNodeAsEvicted`. Stricter than the code: of a node that is on a list (whose neighbours would go on
pointing to it) this panics. -/
def initNodeAsEvicted (τ : TreeId) (i : Id) : M K V Unit := onLru τ fun s =>
  if (s.el i).tag = .noLRU then some (s.init i) else none

/-- btree.go:1998-2004 `incCacheHits` -/
def incCacheHits (τ : TreeId) : M K V Unit := onCtl τ fun c => { c with hits := c.hits + 1 }

/-- btree.go:2006-2012 `incCacheMisses` -/
def incCacheMisses (τ : TreeId) : M K V Unit := onCtl τ fun c => { c with misses := c.misses + 1 }

/-- btree.go:2014-2070 `markNodeUsed` -/
def markNodeUsed (τ : TreeId) (i : Id) : M K V Unit := onLru τ fun s => s.used i

/-- btree.go:2162-2165: start the drainer if need be. -/
def startDrainer (τ : TreeId) : M K V Unit := fun w =>
  onCtl τ (fun c =>
    if !c.active && c.high < w.lru.clean.items + w.lru.dirty.items then
      { c with active := true, drainers := c.drainers + 1 }
    else c) w

/-- btree.go:2072-2168 `markNodeClean` -/
def markNodeClean (τ : TreeId) (i : Id) : M K V Unit := do
  modN i fun n => { n with dirty := false }
  onLru τ fun s => s.place false i
  startDrainer τ

/-- btree.go:2432-2457 `placeNodeOnStaleOnDiskReferenceList` -/
def placeStale (τ : TreeId) (i : Id) : M K V Unit := do
  let n ← getN i
  if n.ref.len ≠ 0 then do
    modT τ fun t => { t with stale := if n.ref ∈ t.stale then t.stale else n.ref :: t.stale }
    modN i fun n => { n with ref := Ref.zero }
  else pure ()

/-- btree.go:2170-2264 `markNodeDirty` -/
def markNodeDirty (τ : TreeId) (i : Id) : M K V Unit := do
  modN i fun n => { n with dirty := true }
  placeStale τ i
  onLru τ fun s => s.place true i

/-- btree.go:2266-2346 `markNodeEvicted` -/
def markNodeEvicted (τ : TreeId) (i : Id) : M K V Unit := onLru τ fun s => s.drop i

/-- btree.go:2348-2430 `markNodeToBeDiscarded` -/
def markNodeToBeDiscarded (τ : TreeId) (i : Id) : M K V Unit := do
  placeStale τ i
  onLru τ fun s => s.drop i

/-! ### Prefix sums -/

/-- btree.go:2585-2602 `arrangePrefixSumTreeRecursively`; the slice is never empty in Go, an
empty one would panic at 2588. -/
def arrangeRec : Nat → List Id → M K V Id
  | 0, _ => M.fatal
  | fuel + 1, slice => do
      let midPointIndex := slice.length / 2
      let mid ← M.deref slice[midPointIndex]?
      (if 0 < midPointIndex then do
        let l ← arrangeRec fuel (slice.take midPointIndex)
        modP mid fun p => { p with left := some l }
        modP l fun p => { p with parent := some mid }
        let pl ← getP l
        modP mid fun p => { p with items := p.items + pl.items }
       else pure ())
      (if midPointIndex + 1 < slice.length then do
        let r ← arrangeRec fuel (slice.drop (midPointIndex + 1))
        modP mid fun p => { p with right := some r }
        modP r fun p => { p with parent := some mid }
        let pr ← getP r
        modP mid fun p => { p with items := p.items + pr.items }
       else pure ())
      return mid

/-- btree.go:2612-2616 and 2632-2636: reset a child's prefix-sum fields. -/
def resetPs (c : Id) (kvIndex : Int) : M K V Unit := do
  let n ← getN c
  modP c fun _ => { items := n.items, kvIndex := kvIndex, parent := none, left := none, right := none }

/-- btree.go:2620-2639: the loop over kvLLRB; `i` counts up, `k` is what remains. Returns the
slice. -/
def arrangeLoop (node : Id) : Nat → Nat → M K V (List Id)
  | _, 0 => pure []
  | i, k + 1 => do
      let c ← kvChildOk 2627 node i
      resetPs c i
      let rest ← arrangeLoop node (i + 1) k
      return c :: rest

/-- btree.go:2604-2646 `arrangePrefixSumTree` -/
def arrangePrefixSumTree (node : Id) : M K V Unit := do
  let num ← kvLen node
  let left ← M.deref (← getN node).left
  resetPs left (-1)
  let cs ← arrangeLoop node 0 num.toNat
  let slice := left :: cs
  let r ← arrangeRec slice.length slice
  modN node fun n => { n with psRoot := some r }
  let p ← getP r
  modN node fun n => { n with items := p.items }

/-- `tree.arrangePrefixSumTree(node)` with its error ignored (btree.go:1496-1500, 1655-1659, 1736,
1752-1755, 1831, 1847-1850, 2859). -/
def arrangeIgnore (node : Id) : M K V Unit := do
  let _ ← M.attempt (arrangePrefixSumTree node)
  return ()

/-- btree.go:2648-2661 `rearrangePrefixSumTreeToRoot` -/
def rearrangePrefixSumTreeToRoot (τ : TreeId) : Nat → Id → M K V Unit
  | 0, _ => M.fatal
  | fuel + 1, node => do
      arrangePrefixSumTree node
      markNodeDirty τ node
      let n ← getN node
      if !n.root then do
        rearrangePrefixSumTreeToRoot τ fuel (← M.deref n.parent)
      else pure ()

/-- btree.go:2664-2668, 2679-2683: add a signed delta to a `uint64`. -/
def addDelta (a : Nat) (delta : Int) : Nat :=
  if delta < 0 then sub64 a delta.natAbs else a + delta.natAbs

/-- btree.go:2678-2690: the climb through the prefix-sum tree. -/
def updatePsUp (delta : Int) : Nat → Id → M K V Unit
  | 0, _ => M.fatal
  | fuel + 1, i => do
      modP i fun p => { p with items := addDelta p.items delta }
      match (← getP i).parent with
      | none => pure ()
      | some p => updatePsUp delta fuel p

/-- btree.go:2663-2693 `updatePrefixSumTreeLeafToRootRecursively` -/
def updateRec (τ : TreeId) (delta : Int) : Nat → Id → M K V Unit
  | 0, _ => M.fatal
  | fuel + 1, i => do
      modN i fun n => { n with items := addDelta n.items delta }
      markNodeDirty τ i
      let n ← getN i
      if n.root then pure ()
      else do
        updatePsUp delta (fuel + 1) i
        updateRec τ delta fuel (← M.deref n.parent)

/-- btree.go:2695-2715 `updatePrefixSumTreeLeafToRoot`; the callers ignore its error. -/
def updatePrefixSumTreeLeafToRoot (τ : TreeId) (fuel : Nat) (leafNode : Id) : M K V Unit := do
  let n ← getN leafNode
  if !n.leaf then pure ()
  else do
    let llrbLen ← kvLen leafNode
    let delta := llrbLen - n.items
    if delta = 0 then pure () else updateRec τ delta fuel leafNode

/-- btree.go:2573-2583 `touchLoadedNodeToRoot` -/
def touchLoadedNodeToRoot (τ : TreeId) : Nat → Id → M K V Unit
  | 0, _ => M.fatal
  | fuel + 1, node => do
      markNodeDirty τ node
      let n ← getN node
      if n.root then pure ()
      else do touchLoadedNodeToRoot τ fuel (← M.deref n.parent)

/-! ### Disk -/

/-- The client's GetNode: fails if the oracle says so or nothing is stored there. -/
def getNode (r : Ref) : M K V (DiskNode K V) := fun w =>
  let w' := { w with env := { w.env with gets := w.env.gets + 1 } }
  if w.env.getFails w.env.gets then (.err .getNode, w')
  else
    match w.disk r with
    | some d => (.ok d, w')
    | none => (.err .getNode, w')

/-- A call of UnpackKey / UnpackValue / cstruct.Unpack, which may fail. -/
def unpack : M K V Unit := fun w =>
  let w' := { w with env := { w.env with unpacks := w.env.unpacks + 1 } }
  if w.env.unpackFails w.env.unpacks then (.err .codec, w') else (.ok (), w')

/-- A call of PackKey / PackValue / cstruct.Pack, which may fail. -/
def pack : M K V Unit := fun w =>
  let w' := { w with env := { w.env with packs := w.env.packs + 1 } }
  if w.env.packFails w.env.packs then (.err .codec, w') else (.ok (), w')

/-- The client's PutNode for a node of `len` bytes. -/
def putNode (d : DiskNode K V) (len : Nat) : M K V Ref := fun w =>
  let w' := { w with env := { w.env with puts := w.env.puts + 1 } }
  match w.env.putLoc w.env.puts with
  | none => (.err .putNode, w')
  | some (n, o) =>
      let r : Ref := ⟨n, o, len⟩
      match w.disk r with
      | some _ => (.err .putNode, w')
      | none => (.ok r, { w' with disk := fun r' => if r' = r then some d else w.disk r' })

/-- The client's DiscardNode: fails if the oracle says so or nothing is stored there; otherwise
the storage is gone. -/
def discardDisk (r : Ref) : M K V Unit := fun w =>
  let w' := { w with env := { w.env with discards := w.env.discards + 1 } }
  if w.env.discardFails w.env.discards then (.err .discardNode, w')
  else
    match w.disk r with
    | none => (.err .discardNode, w')
    | some _ =>
        (.ok (), { w' with disk := fun r' => if r' = r then none else w.disk r', log := r :: w.log })

/-- btree.go:2811-2820, 2843-2852: the struct made for a child on disk. -/
def childStruct (τ : TreeId) (node : Id) (c : Ref × Nat) : NodeS K V :=
  { ref := c.1, items := c.2, loaded := false, dirty := false, root := false, leaf := false,
    tree := τ, parent := some node, kv := none, left := none, psRoot := none }

/-- btree.go:2765-2788: the items of a leaf. -/
def loadLeafLoop (cmp : Compare K) (node : Id) : List (K × V) → M K V Unit
  | [] => pure ()
  | (k, v) :: l => do
      unpack
      unpack
      let ok ← kvPut cmp node k (.item v)
      M.check 2785 ok
      loadLeafLoop cmp node l

/-- btree.go:2826-2857: the children of a non-leaf but the first. -/
def loadInnerLoop (cmp : Compare K) (τ : TreeId) (node : Id) : List (K × (Ref × Nat)) → M K V Unit
  | [] => pure ()
  | (k, c) :: l => do
      unpack
      unpack
      let i ← alloc (childStruct (← getN node).tree node c)
      kvPutIgnore cmp node k (.node i)
      initNodeAsEvicted τ i
      loadInnerLoop cmp τ node l

/-- btree.go:2757-2861: payload of a leaf or a non-leaf. -/
def loadBody (cmp : Compare K) (τ : TreeId) (node : Id) : DiskBody K V → M K V Unit
  | .leaf l => do
      unpack
      loadLeafLoop cmp node l
      modN node fun n => { n with psRoot := none }
  | .none => do
      unpack
      modN node fun n => { n with left := none }
  | .inner c0 cs => do
      unpack
      unpack
      let i ← alloc (childStruct (← getN node).tree node c0)
      modN node fun n => { n with left := some i }
      initNodeAsEvicted τ i
      loadInnerLoop cmp τ node cs
      arrangeIgnore node

/-- Is it a leaf on disk? -/
def DiskBody.isLeaf : DiskBody K V → Bool
  | .leaf _ => true
  | _ => false

/-- btree.go:2744-2755: a root carries maxKeysPerNode. -/
def loadMax (τ : TreeId) (d : DiskNode K V) : M K V Unit :=
  if d.root then do
    unpack
    modT τ fun t => { t with min := d.max / 2, max := d.max }
  else pure ()

/-- btree.go:2717-2874 `loadNode` (the payload of a parsed node is always exhausted). -/
def loadNode (cmp : Compare K) (τ : TreeId) (node : Id) : M K V Unit := do
  let d ← getNode (← getN node).ref
  modN node fun n => { n with kv := some .nil }
  unpack
  modN node fun n => { n with items := d.items, root := d.root, leaf := d.body.isLeaf }
  loadMax τ d
  loadBody cmp τ node d.body
  modN node fun n => { n with loaded := true }
  markNodeClean τ node

/-- btree.go:2923-2946: the items of a leaf. -/
def postLeafLoop (node : Id) : Nat → Nat → M K V (List (K × V))
  | _, 0 => pure []
  | i, k + 1 => do
      let (key, v) ← M.must 2930 (← kvGetByIndex node i)
      match v with
      | .node _ => M.fatal
      | .item v => do
          pack
          pack
          let rest ← postLeafLoop node (i + 1) k
          return (key, v) :: rest

/-- btree.go:2977-2993, 3014-3030: the reference to a child, which must not be dirty. -/
def postRef (line : Nat) (c : Id) : M K V (Ref × Nat) := do
  let n ← getN c
  M.check line (!n.dirty)
  pack
  return (n.ref, n.items)

/-- btree.go:2994-3031: the children but the first. -/
def postInnerLoop (node : Id) : Nat → Nat → M K V (List (K × (Ref × Nat)))
  | _, 0 => pure []
  | i, k + 1 => do
      let (key, v) ← M.must 3001 (← kvGetByIndex node i)
      pack
      let c ← postRef 3015 (← asNode v)
      let rest ← postInnerLoop node (i + 1) k
      return (key, c) :: rest

/-- btree.go:2906-3033: the payload. -/
def postBody (node : Id) : M K V (DiskBody K V) := do
  let n ← getN node
  let num ← kvLen node
  if n.leaf then do
    pack
    return .leaf (← postLeafLoop node 0 num.toNat)
  else
    match n.left with
    | none => do
        M.check 2958 (num = 0)
        pack
        return .none
    | some l => do
        pack
        let c0 ← postRef 2978 l
        return .inner c0 (← postInnerLoop node 0 num.toNat)

/-- btree.go:2876-3053 `postNode`. `size` is the length of the packed payload; the header
(Items, Root, Leaf) takes ten bytes more. -/
def postNode (size : DiskNode K V → Nat) (τ : TreeId) (node : Id) : M K V Unit := do
  let n ← getN node
  if !n.dirty then pure ()
  else do
    let t ← getT τ
    (if n.root then pack else pure ())
    let body ← postBody node
    pack
    let d : DiskNode K V := { items := n.items, root := n.root, max := if n.root then t.max else 0, body := body }
    let r ← putNode d (size d + 10)
    modN node fun n => { n with ref := r }
    markNodeClean τ node

/-- btree.go:1918-1926, 1976-1984: drop a node's contents from memory. -/
def evict (τ : TreeId) (node : Id) : M K V Unit := do
  markNodeEvicted τ node
  modN node fun n => { n with kv := none, left := none, psRoot := none, loaded := false }

/-- The recurring loop `for i := 0; i < n; i++ { child of index i; f(child) }`
(btree.go:1892-1908, 1957-1973, 1116-1132, 2550-2566, 3090-3105). -/
def forChildren (line : Nat) (node : Id) (f : Id → M K V Unit) : Nat → Nat → M K V Unit
  | _, 0 => pure ()
  | i, k + 1 => do
      let c ← kvChildOk line node i
      f c
      forChildren line node f (i + 1) k

/-- The recurring descent into all children of a non-leaf: `nonLeafLeftChild` if not nil, then the
others (btree.go:1878-1909 and alike). -/
def eachChild (line : Nat) (node : Id) (f : Id → M K V Unit) : M K V Unit := do
  let n ← getN node
  if n.leaf then pure ()
  else do
    (match n.left with
     | none => pure ()
     | some l => f l)
    let num ← kvLen node
    forChildren line node f 0 num.toNat

/-- btree.go:1872-1930 `flushNode` -/
def flushNode (size : DiskNode K V → Nat) (τ : TreeId) (andPurge : Bool) : Nat → Id → M K V Unit
  | 0, _ => M.fatal
  | fuel + 1, node => do
      let n ← getN node
      if !n.loaded then pure ()
      else do
        eachChild 1899 node (flushNode size τ andPurge fuel)
        let n ← getN node
        (if n.dirty then postNode size τ node else pure ())
        if andPurge then evict τ node else pure ()

/-- btree.go:1932-1988 `purgeNode` -/
def purgeNode (τ : TreeId) (full : Bool) : Nat → Id → M K V Unit
  | 0, _ => M.fatal
  | fuel + 1, node => do
      let n ← getN node
      if !n.loaded then pure ()
      else if full && n.dirty then M.throw (.logic 1939)
      else do
        eachChild 1964 node (purgeNode τ full fuel)
        let n ← getN node
        if !n.dirty then evict τ node else pure ()

/-- btree.go:119-128 and alike: account for the visit of a node and load it if need be.
`mark = false` is the variant without markNodeUsed (Put, PatchByKey, Len, TouchItem, touchNode,
discardNode: 618-626, 700-708, 757-765, 949-959, 1092-1100, 2524-2532). -/
def visit (cmp : Compare K) (τ : TreeId) (mark : Bool) (node : Id) : M K V Unit := do
  let n ← getN node
  if n.loaded then do
    incCacheHits τ
    if mark then markNodeUsed τ node else pure ()
  else do
    incCacheMisses τ
    loadNode cmp τ node

/-- btree.go:2523-2571 `touchNode` -/
def touchNode (cmp : Compare K) (τ : TreeId) : Nat → Id → M K V Unit
  | 0, _ => M.fatal
  | fuel + 1, node => do
      visit cmp τ false node
      markNodeDirty τ node
      eachChild 2557 node (touchNode cmp τ fuel)

/-- btree.go:1091-1139 `discardNode` -/
def discardNode (cmp : Compare K) (τ : TreeId) : Nat → Id → M K V Unit
  | 0, _ => M.fatal
  | fuel + 1, node => do
      visit cmp τ false node
      eachChild 1123 node (discardNode cmp τ fuel)
      markNodeToBeDiscarded τ node

/-- btree.go:1075-1080 -/
def pruneLoop : List Ref → M K V Unit
  | [] => pure ()
  | r :: rs => do
      discardDisk r
      pruneLoop rs

/-- btree.go:1075 `range` over a map: its keys in any order, which the environment chooses. -/
def ranged (l : List Ref) : M K V (List Ref) := fun w =>
  let l' := w.env.order w.env.discards l
  (.ok (if l'.isPerm l then l' else l), w)

/-- btree.go:1067-1089 `pruneWhileLocked` -/
def pruneWhileLocked (τ : TreeId) : M K V Unit := do
  pruneLoop (← ranged (← getT τ).stale)
  modT τ fun t => { t with stale := [] }

/-! ### Descents -/

/-- btree.go:144-170 and alike: the child of a non-leaf to descend into for a key, and the index
under which it is found: `some (-1)` is nonLeafLeftChild, `none` is nonLeafLeftChild of a node
without keys. -/
def childFor (cmp : Compare K) (node : Id) (key : K) : M K V (Option Int × Id) := do
  match ← kvGetByIndex node 0 with
  | none => do
      let c ← M.deref (← getN node).left
      return (none, c)
  | some (minKey, _) =>
      match cmp key minKey with
      | .error e => M.throw e
      | .ok compareResult =>
          if 0 > compareResult then do
            let c ← M.deref (← getN node).left
            return (some (-1), c)
          else do
            let (idx, _) ← liftBisect (LLRB.Tree.bisectLeft cmp key (← kvOf node))
            let c ← kvChild node idx
            return (some idx, c)

/-- btree.go:396-413 and alike: find the child holding an index, through the prefix-sum tree;
returns it and the index within it. -/
def psFind : Nat → Id → Nat → M K V (Id × Nat)
  | 0, _, _ => M.fatal
  | fuel + 1, node, netIndex => do
      let p ← getP node
      let n ← getN node
      let leftItems ← (match p.left with
        | none => pure 0
        | some l => do return (← getP l).items)
      if netIndex < leftItems then do
        psFind fuel (← M.deref p.left) netIndex
      else if netIndex < leftItems + n.items then
        return (node, netIndex - leftItems)
      else do
        psFind fuel (← M.deref p.right) (netIndex - (leftItems + n.items))

/-- btree.go:173-175, 202-204, 214-216: `prefixSumItems` of the left child, 0 if there is none. -/
def leftSum (c : Id) : M K V Nat := do
  match (← getP c).left with
  | none => return 0
  | some l => return (← getP l).items

/-- btree.go:185-198: climb to the top of the prefix-sum tree; the stack has its top first. -/
def psClimb : Nat → Id → List Bool → M K V (Id × List Bool)
  | 0, _, _ => M.fatal
  | fuel + 1, c, stack => do
      let parent ← M.deref (← getP c).parent
      let pp ← getP parent
      let stack := (if pp.left = some c then false else true) :: stack
      match pp.parent with
      | none => return (parent, stack)
      | some _ => psClimb fuel parent stack

/-- btree.go:200-212: descend again, adding up what lies to the left. -/
def psDescend : List Bool → Id → Nat → M K V (Id × Nat)
  | [], c, delta => return (c, delta)
  | true :: stack, c, delta => do
      let s ← leftSum c
      let n ← getN c
      let r ← M.deref (← getP c).right
      psDescend stack r (delta + s + n.items)
  | false :: stack, c, delta => do
      let l ← M.deref (← getP c).left
      psDescend stack l delta

/-- btree.go:172-219: the number of items in the children left of `child`; also the node the
descent goes on with. -/
def psDelta (fuel : Nat) (node child : Id) (delta : Nat) : M K V (Id × Nat) := do
  if (← getN node).psRoot = some child then do
    return (child, delta + (← leftSum child))
  else do
    let (top, stack) ← psClimb fuel child []
    let (c, delta) ← psDescend stack top delta
    return (c, delta + (← leftSum c))

/-- btree.go:118-224, 234-340: the loop of BisectLeft and BisectRight, which differ in the call
made on the leaf. -/
def bisectLoop (cmp : Compare K) (τ : TreeId)
    (f : LLRB.Tree K (Val V) → Option (Int × Bool × Option Err)) (key : K) :
    Nat → Id → Nat → M K V (Int × Bool)
  | 0, _, _ => M.fatal
  | fuel + 1, node, indexDelta => do
      visit cmp τ true node
      if (← getN node).leaf then do
        let (netIndex, found) ← liftBisect (f (← kvOf node))
        return (indexDelta + netIndex, found)
      else
        match ← childFor cmp node key with
        | (some idx, c) =>
            if 0 ≤ idx then do
              let (c, indexDelta) ← psDelta (fuel + 1) node c indexDelta
              bisectLoop cmp τ f key fuel c indexDelta
            else bisectLoop cmp τ f key fuel c indexDelta
        | (none, c) => bisectLoop cmp τ f key fuel c indexDelta

/-- btree.go:366-377,394-413 and alike: go down to the leaf holding an index; returns the leaf, the
index within it, and parentIndexStack, top first (only DeleteByIndex uses it). -/
def indexDescend (cmp : Compare K) (τ : TreeId) (mark : Bool) :
    Nat → Id → Nat → List Int → M K V (Id × Nat × List Int)
  | 0, _, _, _ => M.fatal
  | fuel + 1, node, netIndex, stack => do
      visit cmp τ mark node
      let n ← getN node
      if n.leaf then return (node, netIndex, stack)
      else do
        let (c, netIndex) ← psFind (fuel + 1) (← M.deref n.psRoot) netIndex
        indexDescend cmp τ mark fuel c netIndex ((← getP c).kvIndex :: stack)

/-- btree.go:563-574,580-611 and alike: go down to the leaf responsible for a key; returns it and
parentIndexStack, top first (only DeleteByKey uses it). Descending from a node without keys pushes
nothing (490). -/
def keyDescend (cmp : Compare K) (τ : TreeId) (mark : Bool) (key : K) :
    Nat → Id → List Int → M K V (Id × List Int)
  | 0, _, _ => M.fatal
  | fuel + 1, node, stack => do
      visit cmp τ mark node
      if (← getN node).leaf then return (node, stack)
      else
        match ← childFor cmp node key with
        | (some idx, c) => keyDescend cmp τ mark key fuel c (idx :: stack)
        | (none, c) => keyDescend cmp τ mark key fuel c stack

/-! ### Insertion -/

/-- btree.go:1167-1185: the new right sibling; btree.go:1263-1281: the new root. -/
def freshStruct (τ : TreeId) (items : Nat) (root leaf : Bool) (parent left : Option Id) : NodeS K V :=
  { ref := Ref.zero, items := items, loaded := true, dirty := true, root := root, leaf := leaf,
    tree := τ, parent := parent, kv := some .nil, left := left, psRoot := none }

/-- btree.go:1187-1247: move keys off the right end until minKeysPerNode are left. The first
argument is `llrbLen` (it goes down by one each time round; at 0 GetByIndex(-1) fails). Returns
splitKey. -/
def splitLoop (cmp : Compare K) (min : Nat) (leaf : Bool) (ins new : Id) : Nat → M K V K
  | 0 => M.throw (.logic 1193)
  | n + 1 => do
      let (k, v) ← M.must 1193 (← kvGetByIndex ins n)
      M.check 1202 (← kvDeleteByIndex cmp ins n)
      if leaf then do
        modN ins fun x => { x with items := sub64 x.items 1 }
        modN new fun x => { x with items := x.items + 1 }
        M.check 1217 (← kvPut cmp new k v)
        if min = n then return k else splitLoop cmp min leaf ins new n
      else do
        let c ← asNode v
        modN c fun x => { x with parent := some new }
        let cn ← getN c
        modN ins fun x => { x with items := sub64 x.items cn.items }
        modN new fun x => { x with items := x.items + cn.items }
        if min = n then do
          modN new fun x => { x with left := some c }
          return k
        else do
          M.check 1242 (← kvPut cmp new k v)
          splitLoop cmp min leaf ins new n

/-- btree.go:1260-1292: the root has been split. -/
def growRoot (cmp : Compare K) (τ : TreeId) (ins new : Id) (splitKey : K) : M K V Unit := do
  modN ins fun x => { x with root := false }
  let a ← getN ins
  let b ← getN new
  let root ← alloc (freshStruct τ (a.items + b.items) true false none (some ins))
  modT τ fun t => { t with root := some root }
  modN ins fun x => { x with parent := some root }
  modN new fun x => { x with parent := some root }
  kvPutIgnore cmp root splitKey (.node new)
  initNodeAsEvicted τ new
  markNodeDirty τ new
  initNodeAsEvicted τ root
  markNodeDirty τ root

/-- btree.go:1167-1258: split a node that has become too long; returns the new right sibling and
splitKey. -/
def splitNode (cmp : Compare K) (τ : TreeId) (ins : Id) (llrbLen : Nat) : M K V (Id × K) := do
  let t ← getT τ
  let n ← getN ins
  let new ← alloc (freshStruct τ 0 false n.leaf n.parent none)
  let splitKey ← splitLoop cmp t.min n.leaf ins new llrbLen
  (if !n.leaf then do
    arrangePrefixSumTree ins
    arrangePrefixSumTree new
   else pure ())
  return (new, splitKey)

/-- btree.go:1141-1310 `insertHere` -/
def insertHere (cmp : Compare K) (τ : TreeId) (big : Nat) : Nat → Id → K → Val V → M K V Unit
  | 0, _, _, _ => M.fatal
  | fuel + 1, ins, key, value => do
      kvPutIgnore cmp ins key value
      (if (← getN ins).leaf then updatePrefixSumTreeLeafToRoot τ big ins else pure ())
      let llrbLen ← kvLen ins
      if (← getT τ).max ≥ llrbLen then pure ()
      else do
        let (new, splitKey) ← splitNode cmp τ ins llrbLen.toNat
        let n ← getN ins
        (if n.root then growRoot cmp τ ins new splitKey
         else do
           insertHere cmp τ big fuel (← M.deref n.parent) splitKey (.node new)
           initNodeAsEvicted τ new
           markNodeDirty τ new)
        rearrangePrefixSumTreeToRoot τ big (← M.deref (← getN ins).parent)

/-! ### Rebalancing -/

/-- btree.go:1396-1439: move the last item of the left sibling over. -/
def borrowLeftLeaf (cmp : Compare K) (node parent sib : Id) (pIdx llrbLen : Int) : M K V Unit := do
  let (k, v) ← M.must 1405 (← kvGetByIndex sib (llrbLen - 1))
  M.check 1413 (← kvDeleteByIndex cmp sib (llrbLen - 1))
  M.check 1421 (← kvPut cmp node k v)
  M.check 1429 (← kvDeleteByIndex cmp parent pIdx)
  M.check 1437 (← kvPut cmp parent k (.node node))

/-- btree.go:1440-1498: rotate the last child of the left sibling over. -/
def borrowLeftInner (cmp : Compare K) (node parent sib : Id) (pIdx llrbLen : Int) : M K V Unit := do
  let (k, v) ← M.must 1449 (← kvGetByIndex sib (llrbLen - 1))
  let c ← asNode v
  M.check 1458 (← kvDeleteByIndex cmp sib (llrbLen - 1))
  let (pk, _) ← M.must 1466 (← kvGetByIndex parent pIdx)
  M.check 1474 (← kvDeleteByIndex cmp parent pIdx)
  let l ← M.deref (← getN node).left
  M.check 1482 (← kvPut cmp node pk (.node l))
  modN c fun x => { x with parent := some node }
  modN node fun x => { x with left := some c }
  M.check 1492 (← kvPut cmp parent k (.node node))
  arrangeIgnore sib
  arrangeIgnore node

/-- btree.go:1390-1506: the left sibling gives up a key. -/
def borrowLeft (cmp : Compare K) (τ : TreeId) (node parent sib : Id) (pIdx llrbLen : Int) :
    M K V Unit := do
  modN sib fun x => { x with items := sub64 x.items 1 }
  modN node fun x => { x with items := x.items + 1 }
  (if (← getN node).leaf then borrowLeftLeaf cmp node parent sib pIdx llrbLen
   else borrowLeftInner cmp node parent sib pIdx llrbLen)
  arrangeIgnore parent
  markNodeDirty τ sib

/-- btree.go:1549-1599: move the first item of the right sibling over. -/
def borrowRightLeaf (cmp : Compare K) (node parent sib : Id) (pIdx : Int) : M K V Unit := do
  let (k, v) ← M.must 1557 (← kvGetByIndex sib 0)
  M.check 1565 (← kvDeleteByIndex cmp sib 0)
  M.check 1573 (← kvPut cmp node k v)
  let (newSplitKey, _) ← M.must 1581 (← kvGetByIndex sib 0)
  M.check 1589 (← kvDeleteByIndex cmp parent (pIdx + 1))
  M.check 1597 (← kvPut cmp parent newSplitKey (.node sib))

/-- btree.go:1600-1657: rotate the first child of the right sibling over. -/
def borrowRightInner (cmp : Compare K) (node parent sib : Id) (pIdx : Int) : M K V Unit := do
  let (newSplitKey, v) ← M.must 1608 (← kvGetByIndex sib 0)
  M.check 1616 (← kvDeleteByIndex cmp sib 0)
  let (pk, _) ← M.must 1624 (← kvGetByIndex parent (pIdx + 1))
  M.check 1632 (← kvDeleteByIndex cmp parent (pIdx + 1))
  let c ← M.deref (← getN sib).left
  let l ← asNode v
  modN sib fun x => { x with left := some l }
  modN c fun x => { x with parent := some node }
  M.check 1643 (← kvPut cmp node pk (.node c))
  M.check 1651 (← kvPut cmp parent newSplitKey (.node sib))
  arrangeIgnore node
  arrangeIgnore sib

/-- btree.go:1543-1665: the right sibling gives up a key. -/
def borrowRight (cmp : Compare K) (τ : TreeId) (node parent sib : Id) (pIdx : Int) : M K V Unit := do
  modN node fun x => { x with items := x.items + 1 }
  modN sib fun x => { x with items := sub64 x.items 1 }
  (if (← getN node).leaf then borrowRightLeaf cmp node parent sib pIdx
   else borrowRightInner cmp node parent sib pIdx)
  arrangeIgnore parent
  markNodeDirty τ sib

/-- btree.go:1707-1710, 1802-1805: a moved child gets a new parent; an item's value has none. -/
def reparent (v : Val V) (p : Id) : M K V Unit :=
  match v with
  | .node c => modN c fun x => { x with parent := some p }
  | .item _ => pure ()

/-- btree.go:1698-1719, 1793-1814: move all of `src`'s entries to `dst`. -/
def mergeLoop (cmp : Compare K) (dst src : Id) : Nat → Nat → M K V Unit
  | _, 0 => pure ()
  | i, k + 1 => do
      let (key, v) ← M.must 1704 (← kvGetByIndex src i)
      reparent v dst
      M.check 1716 (← kvPut cmp dst key v)
      mergeLoop cmp dst src (i + 1) k

/-- btree.go:1673-1719 and 1768-1814: move everything in `src` to its left neighbour `dst`; the
separator between them is at `sepIdx` in `parent`; `leaf` is rebalanceNode.leaf. The Put at 1685
ignores its results and the check at 1689 looks at an older `ok`, which is true; 1780-1787 do
check. Errors bear the line numbers of the first variant. -/
def mergeInto (cmp : Compare K) (parent dst src : Id) (sepIdx : Int) (leaf checked : Bool) :
    M K V Unit := do
  let s ← getN src
  modN dst fun x => { x with items := x.items + s.items }
  let (oldSplitKey, _) ← M.must 1680 (← kvGetByIndex parent sepIdx)
  (if !leaf then do
    let l ← M.deref s.left
    modN l fun x => { x with parent := some dst }
    if checked then do M.check 1785 (← kvPut cmp dst oldSplitKey (.node l))
    else kvPutIgnore cmp dst oldSplitKey (.node l)
   else pure ())
  let num ← kvLen src
  mergeLoop cmp dst src 0 num.toNat

/-- btree.go:1726-1737, 1821-1832: the root has lost its last separator; `dst` becomes root. -/
def shrinkRoot (τ : TreeId) (dst : Id) : M K V Unit := do
  markNodeToBeDiscarded τ (← rootOf τ)
  modN dst fun x => { x with root := true, parent := none }
  modT τ fun t => { t with root := some dst }
  if !(← getN dst).leaf then arrangeIgnore dst else pure ()

/-- btree.go:1742-1755, 1837-1850: take the separator out of the parent. -/
def dropSep (cmp : Compare K) (parent dst : Id) (sepIdx : Int) : M K V Unit := do
  M.check 1747 (← kvDeleteByIndex cmp parent sepIdx)
  (if !(← getN dst).leaf then arrangeIgnore dst else pure ())
  arrangeIgnore parent

/-- btree.go:1670-1764 and 1765-1859: merge `src` into its left neighbour `dst`; `recur` is the
recursive call on the parent. -/
def merge (cmp : Compare K) (τ : TreeId) (recur : M K V Unit) (parent dst src : Id) (sepIdx : Int)
    (leaf checked : Bool) : M K V Unit := do
  mergeInto cmp parent dst src sepIdx leaf checked
  let llrbLen ← kvLen parent
  (if (← getN parent).root && llrbLen == 1 then shrinkRoot τ dst
   else do
     dropSep cmp parent dst sepIdx
     recur)
  markNodeToBeDiscarded τ src
  markNodeDirty τ dst

/-- btree.go:1357-1372: the left sibling, nil for the first child. -/
def leftSibling (parent : Id) (pIdx : Int) : M K V (Option Id) :=
  if pIdx = -1 then return none
  else if pIdx = 0 then do
    return some (← M.deref (← getN parent).left)
  else do
    return some (← kvChildOk 1368 parent (pIdx - 1))

/-- btree.go:1509-1525: the right sibling, nil for the last child. -/
def rightSibling (parent : Id) (pIdx : Int) : M K V (Option Id) := do
  let llrbLen ← kvLen parent
  if llrbLen - 1 = pIdx then return none
  else do
    return some (← kvChildOk 1522 parent (pIdx + 1))

/-- btree.go:1374-1390, 1527-1543: load a sibling; `some llrbLen` if it can give up a key. -/
def canLend (cmp : Compare K) (τ : TreeId) (sib : Option Id) : M K V (Option (Id × Int)) :=
  match sib with
  | none => return none
  | some s => do
      visit cmp τ true s
      let llrbLen ← kvLen s
      return if llrbLen > (← getT τ).min then some (s, llrbLen) else none

/-- btree.go:1312-1870 `rebalanceHere` -/
def rebalanceHere (cmp : Compare K) (τ : TreeId) : Nat → Id → List Int → M K V Unit
  | 0, _, _ => M.fatal
  | fuel + 1, node, stack => do
      let n ← getN node
      if n.root then pure ()
      else do
        let llrbLen ← kvLen node
        if llrbLen ≥ (← getT τ).min then pure ()
        else do
          let parent ← M.deref n.parent
          let pIdx ← M.deref stack.head?
          let left ← leftSibling parent pIdx
          match ← canLend cmp τ left with
          | some (sib, llrbLen) => borrowLeft cmp τ node parent sib pIdx llrbLen
          | none => do
              let right ← rightSibling parent pIdx
              match ← canLend cmp τ right with
              | some (sib, _) => borrowRight cmp τ node parent sib pIdx
              | none =>
                  match left, right with
                  | some sib, _ =>
                      merge cmp τ (rebalanceHere cmp τ fuel parent stack.tail) parent sib node pIdx n.leaf false
                  | none, some sib =>
                      merge cmp τ (rebalanceHere cmp τ fuel parent stack.tail) parent node sib (pIdx + 1) n.leaf true
                  | none, none => M.throw (.logic 1864)

/-! ### The API. A returned error is `M.throw` where the other results are zero values, and part of
the result where they are not. -/

open Spec (Op Ans)

/-- A result with `err`. -/
def withErr {α : Type} (a : α) (m : M K V Unit) : M K V (α × Option Err) := do
  match ← M.attempt m with
  | .ok () => return (a, none)
  | .error e => return (a, some e)

/-- `(0 > index) || (uint64(index) >= node.items)` (btree.go:358, 505, 644) -/
def outOfRange (τ : TreeId) (index : Int) : M K V Bool := do
  let n ← getN (← rootOf τ)
  return index < 0 || index ≥ n.items

/-- btree.go:750-818 `Put` -/
def put (cmp : Compare K) (τ : TreeId) (fuel : Nat) (key : K) (value : V) :
    M K V (Bool × Option Err) := do
  let (leaf, _) ← keyDescend cmp τ false key fuel (← rootOf τ) []
  match LLRB.Tree.getByKey cmp key (← kvOf leaf) with
  | (_, some e) => M.throw e
  | (some _, none) => return (false, none)
  | (none, none) => withErr true (insertHere cmp τ fuel fuel leaf key (.item value))

/-- An item's value as the interface value handed to the client. -/
def asItem : Val V → M K V V
  | .item v => pure v
  | .node _ => M.fatal

/-- btree.go:557-612 `GetByKey` -/
def getByKey (cmp : Compare K) (τ : TreeId) (fuel : Nat) (key : K) : M K V (Option V) := do
  let (leaf, _) ← keyDescend cmp τ true key fuel (← rootOf τ) []
  match LLRB.Tree.getByKey cmp key (← kvOf leaf) with
  | (_, some e) => M.throw e
  | (none, none) => return none
  | (some v, none) => return some (← asItem v)

/-- btree.go:495-555 `GetByIndex`; if the leaf had no such index (it always has) Go would return
nil, nil and `ok == true`, which here counts as fatal. -/
def getByIndex (cmp : Compare K) (τ : TreeId) (fuel : Nat) (index : Int) : M K V (Option (K × V)) := do
  if ← outOfRange τ index then return none
  else do
    let (leaf, netIndex, _) ← indexDescend cmp τ true fuel (← rootOf τ) index.toNat []
    let (k, v) ← M.deref (← kvGetByIndex leaf netIndex)
    return some (k, ← asItem v)

/-- btree.go:693-748 `PatchByKey` -/
def patchByKey (cmp : Compare K) (τ : TreeId) (fuel : Nat) (key : K) (value : V) :
    M K V (Bool × Option Err) := do
  let (leaf, _) ← keyDescend cmp τ false key fuel (← rootOf τ) []
  touchLoadedNodeToRoot τ fuel leaf
  let (r, t) := LLRB.Tree.patchByKey cmp key (.item value) (← kvOf leaf)
  setKv leaf t
  return r

/-- btree.go:634-691 `PatchByIndex` -/
def patchByIndex (cmp : Compare K) (τ : TreeId) (fuel : Nat) (index : Int) (value : V) :
    M K V (Bool × Option Err) := do
  if ← outOfRange τ index then return (false, none)
  else do
    let (leaf, netIndex, _) ← indexDescend cmp τ true fuel (← rootOf τ) index.toNat []
    touchLoadedNodeToRoot τ fuel leaf
    match LLRB.Tree.patchByIndex netIndex (.item value) (← kvOf leaf) with
    | none => M.fatal
    | some ((_, e), t) => do
        setKv leaf t
        return (true, e)

/-- btree.go:446-451 and 383-388: after the item has gone from the leaf. -/
def afterDelete (cmp : Compare K) (τ : TreeId) (fuel : Nat) (leaf : Id) (stack : List Int) :
    M K V Unit := do
  markNodeDirty τ leaf
  updatePrefixSumTreeLeafToRoot τ fuel leaf
  rebalanceHere cmp τ fuel leaf stack

/-- btree.go:417-493 `DeleteByKey`: an error of rebalanceHere comes back with `ok == true`. -/
def deleteByKey (cmp : Compare K) (τ : TreeId) (fuel : Nat) (key : K) : M K V (Bool × Option Err) := do
  let (leaf, stack) ← keyDescend cmp τ true key fuel (← rootOf τ) []
  match LLRB.Tree.deleteByKey cmp key (← kvOf leaf) with
  | none => M.fatal
  | some ((ok, some e), t) => do
      setKv leaf t
      return (ok, some e)
  | some ((false, none), t) => do
      setKv leaf t
      return (false, none)
  | some ((true, none), t) => do
      setKv leaf t
      withErr true (afterDelete cmp τ fuel leaf stack)

/-- btree.go:343-415 `DeleteByIndex`: an error of rebalanceHere comes back with `ok == false`. -/
def deleteByIndex (cmp : Compare K) (τ : TreeId) (fuel : Nat) (index : Int) :
    M K V (Bool × Option Err) := do
  if ← outOfRange τ index then return (false, none)
  else do
    let (leaf, netIndex, stack) ← indexDescend cmp τ true fuel (← rootOf τ) index.toNat []
    let _ ← kvDeleteByIndex cmp leaf netIndex
    afterDelete cmp τ fuel leaf stack
    return (true, none)

/-- btree.go:111-225 `BisectLeft` -/
def bisectLeft (cmp : Compare K) (τ : TreeId) (fuel : Nat) (key : K) : M K V (Int × Bool) := do
  bisectLoop cmp τ (LLRB.Tree.bisectLeft cmp key) key fuel (← rootOf τ) 0

/-- btree.go:227-341 `BisectRight` -/
def bisectRight (cmp : Compare K) (τ : TreeId) (fuel : Nat) (key : K) : M K V (Int × Bool) := do
  bisectLoop cmp τ (LLRB.Tree.bisectRight cmp key) key fuel (← rootOf τ) 0

/-- btree.go:614-632 `Len` -/
def len (cmp : Compare K) (τ : TreeId) : M K V Int := do
  let r ← rootOf τ
  visit cmp τ false r
  return (← getN r).items

/-- btree_validate.go:144-180 `validatePrefixSum`. The error of
the left child (155) is overwritten at 166 or 177; with a right child, the left one is checked a
second time instead of the right (166). -/
def validatePrefixSum : Nat → Id → M K V Unit
  | 0, _ => M.fatal
  | fuel + 1, node => do
      let n ← getN node
      let p ← getP node
      let e1 ← (match p.left with
        | none => pure n.items
        | some l => do
            let pl ← getP l
            (if pl.parent ≠ some node then M.throw (.invalid 151) else pure ())
            let _ ← M.attempt (validatePrefixSum fuel l)
            pure (n.items + pl.items))
      let e2 ← (match p.right with
        | none => pure e1
        | some r => do
            let pr ← getP r
            (if pr.parent ≠ some node then M.throw (.invalid 162) else pure ())
            validatePrefixSum fuel (← M.deref p.left)
            pure (e1 + pr.items))
      if e2 ≠ p.items then M.throw (.invalid 173) else pure ()

/-- btree_validate.go:18-23: load without touching the cache counters. -/
def validateLoad (cmp : Compare K) (node : Id) : M K V Unit := do
  let n ← getN node
  if !n.loaded then loadNode cmp n.tree node else pure ()

/-- An error of the LLRB's Validate (llrb_validate.go:8-50). -/
def kvValidate (i : Id) : M K V Unit := do
  match LLRB.Tree.validate (← kvOf i) with
  | some e => M.throw e
  | none => pure ()

/-- Fail with a line of btree_validate.go unless the condition holds. -/
def valid (line : Nat) (c : Bool) : M K V Unit := if c then pure () else M.throw (.invalid line)

/-- btree_validate.go:54-64, 98-110: check and descend into one child; returns its items. -/
def validateChild (line : Nat) (node : Id) (rec : Id → M K V Unit) (c : Id) : M K V Nat := do
  valid line ((← getN c).parent == some node)
  rec c
  return (← getN c).items

/-- btree_validate.go:87-111: the loop over kvLLRB. -/
def validateLoop (node : Id) (rec : Id → M K V Unit) : Nat → Nat → M K V Nat
  | _, 0 => pure 0
  | i, k + 1 => do
      let c ← kvChildOk 94 node i
      let a ← validateChild 101 node rec c
      let b ← validateLoop node rec (i + 1) k
      return a + b

/-- btree_validate.go:17-142 `validate` -/
def validateNode (cmp : Compare K) : Nat → Id → M K V Unit
  | 0, _ => M.fatal
  | fuel + 1, node => do
      validateLoad cmp node
      let n ← getN node
      if n.leaf then do
        kvValidate node
        let num ← kvLen node
        valid 38 (num == n.items)
        let t ← getT n.tree
        valid 43 (n.root || num ≥ t.min)
        valid 47 (num ≤ t.max)
      else do
        let a ← (match n.left with
          | none => pure 0
          | some l => validateChild 55 node (validateNode cmp fuel) l)
        kvValidate node
        let num ← kvLen node
        let t ← getT n.tree
        valid 79 (n.root || num ≥ t.min)
        valid 83 (num ≤ t.max)
        let b ← validateLoop node (validateNode cmp fuel) 0 num.toNat
        let childItems := a + b
        let n ← getN node
        valid 114 (childItems == n.items)
        match n.psRoot with
        | none => M.throw (.invalid 119)
        | some r => do
            let p ← getP r
            valid 124 p.parent.isNone
            valid 129 (childItems == p.items)
            validatePrefixSum (num.toNat + 1) r

/-- btree_validate.go:8-15 `Validate` -/
def validate (cmp : Compare K) (τ : TreeId) (fuel : Nat) : M K V Unit := do
  validateNode cmp fuel (← rootOf τ)

/-- One call of the `SortedMap` interface on the B+Tree. -/
def step (cmp : Compare K) (τ : TreeId) (fuel : Nat) : Op K V → M K V (Ans K V × Option Err)
  | .put k v => do let r ← put cmp τ fuel k v; return (.done r.1, r.2)
  | .getByKey k => do let r ← getByKey cmp τ fuel k; return (.value r, none)
  | .getByIndex i => do let r ← getByIndex cmp τ fuel i; return (.item r, none)
  | .patchByKey k v => do let r ← patchByKey cmp τ fuel k v; return (.done r.1, r.2)
  | .patchByIndex i v => do let r ← patchByIndex cmp τ fuel i v; return (.done r.1, r.2)
  | .deleteByKey k => do let r ← deleteByKey cmp τ fuel k; return (.done r.1, r.2)
  | .deleteByIndex i => do let r ← deleteByIndex cmp τ fuel i; return (.done r.1, r.2)
  | .bisectLeft k => do let r ← bisectLeft cmp τ fuel k; return (.index r.1 r.2, none)
  | .bisectRight k => do let r ← bisectRight cmp τ fuel k; return (.index r.1 r.2, none)
  | .len => do let n ← len cmp τ; return (.count n, none)
  | .validate => do validate cmp τ fuel; return (.unit, none)

/-! ### The rest of the `BPlusTree` interface (btree_api.go:26-37) -/

/-- btree.go:820-826 `FetchLocation` -/
def fetchLocation (τ : TreeId) : M K V Ref := do return (← getN (← rootOf τ)).ref

/-- A LayoutReport (btree_api.go:16): a map from objectNumber to bytes. -/
abbrev Layout := Nat → Option Nat

/-- btree.go:3065-3071 -/
def layoutAdd (r : Ref) (m : Layout) : Layout :=
  if r.num ≠ 0 then upd m r.num (some ((m r.num).getD 0 + r.len)) else m

mutual
/-- btree.go:3055-3117 `updateLayoutReport`; the map is threaded through. -/
def updateLayoutReport (cmp : Compare K) (τ : TreeId) : Nat → Id → Layout → M K V Layout
  | 0, _, _ => M.fatal
  | fuel + 1, node, m => do
      let n0 ← getN node
      (if !n0.loaded then loadNode cmp τ node else pure ())
      let n ← getN node
      let m := layoutAdd n.ref m
      let m ← (if !n.leaf then do
          let l ← M.must 3075 n.left
          let m ← updateLayoutReport cmp τ fuel l m
          let num ← kvLen node
          layoutLoop cmp τ fuel node 0 num.toNat m
        else pure m)
      (if !n0.loaded then purgeNode τ true (fuel + 1) node else pure ())
      return m
/-- btree.go:3090-3105 -/
def layoutLoop (cmp : Compare K) (τ : TreeId) : Nat → Id → Nat → Nat → Layout → M K V Layout
  | _, _, _, 0, m => pure m
  | fuel, node, i, k + 1, m => do
      let c ← kvChildOk 3097 node i
      let m ← updateLayoutReport cmp τ fuel c m
      layoutLoop cmp τ fuel node (i + 1) k m
end

/-- btree.go:828-837 `FetchLayoutReport` -/
def fetchLayoutReport (cmp : Compare K) (τ : TreeId) (fuel : Nat) : M K V Layout := do
  updateLayoutReport cmp τ fuel (← rootOf τ) (fun _ => none)

/-- btree_api.go:18-23 -/
structure Dimensions where
  min : Nat
  max : Nat
  items : Nat
  height : Nat
  deriving DecidableEq, Repr

/-- btree.go:849-878: the loop of FetchDimensionsReport. -/
def dimLoop (cmp : Compare K) (τ : TreeId) : Nat → Id → Dimensions → M K V Dimensions
  | 0, _, _ => M.fatal
  | fuel + 1, node, d => do
      visit cmp τ true node
      let n ← getN node
      let t ← getT τ
      let d := if n.root then { min := t.min, max := t.max, items := n.items, height := 1 } else d
      if n.leaf then return d
      else do dimLoop cmp τ fuel (← M.deref n.left) { d with height := d.height + 1 }

/-- btree.go:839-879 `FetchDimensionsReport` -/
def fetchDimensionsReport (cmp : Compare K) (τ : TreeId) (fuel : Nat) : M K V Dimensions := do
  dimLoop cmp τ fuel (← rootOf τ) { min := 0, max := 0, items := 0, height := 0 }

/-- btree.go:881-900 `Flush` -/
def flush (size : DiskNode K V → Nat) (τ : TreeId) (fuel : Nat) (andPurge : Bool) : M K V Ref := do
  flushNode size τ andPurge fuel (← rootOf τ)
  fetchLocation τ

/-- btree.go:902-909 `Purge` -/
def purge (τ : TreeId) (fuel : Nat) (full : Bool) : M K V Unit := do
  purgeNode τ full fuel (← rootOf τ)

/-- btree.go:911-918 `Touch` -/
def touch (cmp : Compare K) (τ : TreeId) (fuel : Nat) : M K V Unit := do
  touchNode cmp τ fuel (← rootOf τ)

/-- btree.go:920-1002 `TouchItem`; at 941 it is the argument that is assigned, so the result is 0
when the index is out of range. -/
def touchItem (cmp : Compare K) (τ : TreeId) (fuel : Nat) (index : Nat) : M K V Nat := do
  let r ← rootOf τ
  let n ← getN r
  if n.items = 0 then return 0
  else if index ≥ n.items then return 0
  else do
    let (leaf, netIndex, _) ← indexDescend cmp τ false fuel r index []
    touchLoadedNodeToRoot τ fuel leaf
    let num ← kvLen leaf
    return index + sub64 num.toNat netIndex

/-- btree.go:1004-1009 `Prune` -/
def prune (τ : TreeId) : M K V Unit := pruneWhileLocked τ

/-- btree.go:1011-1038 `Discard`; the error of discardNode is not looked at. -/
def discard (cmp : Compare K) (τ : TreeId) (fuel : Nat) : M K V Unit := do
  let _ ← M.attempt (discardNode cmp τ fuel (← rootOf τ))
  pruneWhileLocked τ
  modT τ fun t => { t with root := none, stale := [], cached := false }

/-- btree.go:1054-1063 `UpdateLimits` of a cache. -/
def updateLimits (low high : Nat) : M K V Unit := fun w =>
  let c := { w.ctl with low := low, high := high }
  let n := w.lru.clean.items + w.lru.dirty.items
  (.ok (), { w with ctl :=
    if !c.active && 0 < w.lru.clean.items && c.high < n then
      { c with active := true, drainers := c.drainers + 1 }
    else c })

/-- btree_api.go:93-145 `NewBPlusTree`: a panic, or a tree whose root is an empty leaf. -/
def newBPlusTree (τ : TreeId) (max : Nat) (cached : Bool) : M K V Unit := do
  if 4 > max ∨ 2 * (max / 2) ≠ max then M.fatal
  else do
    let r ← alloc { freshStruct τ 0 true true none none with tree := τ }
    modT τ fun _ => { min := max / 2, max := max, root := some r, stale := [], cached := cached }
    initNodeAsEvicted τ r
    markNodeDirty τ r

/-- btree_api.go:148-195 `OldBPlusTree` -/
def oldBPlusTree (cmp : Compare K) (τ : TreeId) (ref : Ref) (cached : Bool) : M K V Unit := do
  let r ← alloc { ref := ref, items := 0, loaded := false, dirty := false, root := true, leaf := true,
                  tree := τ, parent := none, kv := none, left := none, psRoot := none }
  modT τ fun _ => { min := 0, max := 0, root := some r, stale := [], cached := cached }
  initNodeAsEvicted τ r
  loadNode cmp τ r

/-- btree.go:2508-2517: what the drainer does once it holds the tree's mutex. An error of
purgeNode makes it panic. -/
def drainerEvict (fuel : Nat) (node : Id) : M K V Unit := fun w =>
  if (w.lru.el node).tag ≠ .cleanLRU then (.ok (), w)
  else
    match purgeNode (w.node node).tree true fuel node w with
    | (.ok (), w') => (.ok (), w')
    | (_, w') => (.fatal, w')

end
end SM.BT

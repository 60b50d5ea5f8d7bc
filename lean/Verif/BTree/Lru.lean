import Verif.Basic

/-!
Model of the pointer structure of the node cache: the two doubly linked lists of
/repo/btree.go:14-43 and the pointer surgery of markNodeUsed, markNodeClean, markNodeDirty,
markNodeEvicted and markNodeToBeDiscarded (btree.go:2014-2430).

Nodes are pairs of numbers; `none` as a *result* is a panic (nil dereference, or the explicit
`panic(err)` on `noLRU`); `none` as a *pointer* is nil. The Go code writes each block out twice,
once for the clean and once for the dirty list; here a block takes the list as an argument
(`d = true` is the dirty list).
-/

namespace SM.BT

/-- Identity of a node struct (a pointer): the tree it belongs to and a number. (A macro and not a definition, since `Id` is taken.) -/
macro "Id" : term => `((Nat × Nat))

/-- Replace one entry of a table. -/
def upd {ι α : Type} [DecidableEq ι] (f : ι → α) (i : ι) (a : α) : ι → α := fun j => if j = i then a else f j

/-- `uint64` subtraction: wraps below zero. -/
def sub64 (a b : Nat) : Nat := if b ≤ a then a - b else a + 2 ^ 64 - b

/-- btree.go:14-20 `btreeNodeCacheTag` -/
inductive Tag where
  | noLRU
  | cleanLRU
  | dirtyLRU
  deriving DecidableEq, Repr

/-- btree.go:22-26 `btreeNodeCacheElement` -/
structure LruEl where
  tag : Tag
  next : Option Id
  prev : Option Id
  deriving DecidableEq, Repr

/-- One of the two lists of btree.go:34-39. -/
structure LruList where
  head : Option Id
  tail : Option Id
  items : Nat
  deriving DecidableEq, Repr

/-- btree.go:34-39 with the cache elements of all nodes. -/
structure LruS where
  el : Id → LruEl
  clean : LruList
  dirty : LruList

namespace LruS

/-- The tag of the nodes on a list. -/
def tagOf (d : Bool) : Tag := if d then .dirtyLRU else .cleanLRU

/-- The list structure. -/
def lst (s : LruS) (d : Bool) : LruList := if d then s.dirty else s.clean

/-- Replace the list structure. -/
def setLst (s : LruS) (d : Bool) (l : LruList) : LruS :=
  if d then { s with dirty := l } else { s with clean := l }

/-- `x.nextBTreeNode = p` -/
def setNext (s : LruS) (x : Id) (p : Option Id) : LruS :=
  { s with el := upd s.el x { s.el x with next := p } }

/-- `x.prevBTreeNode = p` -/
def setPrev (s : LruS) (x : Id) (p : Option Id) : LruS :=
  { s with el := upd s.el x { s.el x with prev := p } }

/-- `x.btreeNodeCacheTag = t` -/
def setTag (s : LruS) (x : Id) (t : Tag) : LruS :=
  { s with el := upd s.el x { s.el x with tag := t } }

/-- btree.go:2023-2043 (also 2046-2066, 2097-2117, 2240-2260): move a node that is on the list
to its MRU end, if necessary. -/
def moveToTail (s : LruS) (d : Bool) (x : Id) : Option LruS :=
  let L := s.lst d
  if L.tail = some x then some s
  else if L.head = some x then
    match (s.el x).next, L.tail with
    | some h, some t =>
        let s := s.setPrev h none
        let s := s.setPrev x (some t)
        let s := s.setNext x none
        let s := s.setNext t (some x)
        some (s.setLst d { L with head := some h, tail := some x })
    | _, _ => none
  else
    match (s.el x).prev, (s.el x).next, L.tail with
    | some p, some n, some t =>
        let s := s.setNext p (some n)
        let s := s.setPrev n (some p)
        let s := s.setNext x none
        let s := s.setPrev x (some t)
        let s := s.setNext t (some x)
        some (s.setLst d { L with tail := some x })
    | _, _, _ => none

/-- btree.go:2080-2094, 2180-2194: place a node that is on no list at the MRU end. -/
def placeFresh (s : LruS) (d : Bool) (x : Id) : Option LruS :=
  let L := s.lst d
  if L.items = 0 then
    some ((s.setTag x (tagOf d)).setLst d { head := some x, tail := some x, items := 1 })
  else
    match L.tail with
    | some t =>
        let s := s.setPrev x (some t)
        let s := s.setNext t (some x)
        let s := s.setTag x (tagOf d)
        some (s.setLst d { L with tail := some x, items := L.items + 1 })
    | none => none

/-- btree.go:2120-2144, 2197-2221: unlink a node from one list before it goes to the other. Its
own `prevBTreeNode` is left alone (it is overwritten next). -/
def unlink (s : LruS) (d : Bool) (x : Id) : Option LruS :=
  let L := s.lst d
  if L.head = some x then
    if L.tail = some x then some (s.setLst d { head := none, tail := none, items := 0 })
    else
      match (s.el x).next with
      | some h =>
          let s := s.setPrev h none
          let s := s.setNext x none
          some (s.setLst d { L with head := some h, items := sub64 L.items 1 })
      | none => none
  else
    if L.tail = some x then
      match (s.el x).prev with
      | some p => some ((s.setNext p none).setLst d { L with tail := some p, items := sub64 L.items 1 })
      | none => none
    else
      match (s.el x).prev, (s.el x).next with
      | some p, some n =>
          let s := s.setNext p (some n)
          let s := s.setPrev n (some p)
          let s := s.setNext x none
          some (s.setLst d { L with items := sub64 L.items 1 })
      | _, _ => none

/-- btree.go:2146-2160, 2223-2237: append a node just unlinked from the other list. -/
def append (s : LruS) (d : Bool) (x : Id) : Option LruS :=
  let L := s.lst d
  if L.items = 0 then
    let s := s.setTag x (tagOf d)
    let s := s.setPrev x none
    some (s.setLst d { head := some x, tail := some x, items := 1 })
  else
    match L.tail with
    | some t =>
        let s := s.setTag x (tagOf d)
        let s := s.setPrev x (some t)
        let s := s.setNext t (some x)
        some (s.setLst d { L with tail := some x, items := L.items + 1 })
    | none => none

/-- btree.go:2275-2307 (also 2310-2342, 2359-2391, 2394-2426): take a node off a list. -/
def remove (s : LruS) (d : Bool) (x : Id) : Option LruS :=
  let L := s.lst d
  if L.head = some x then
    if L.tail = some x then
      some ((s.setTag x .noLRU).setLst d { head := none, tail := none, items := sub64 L.items 1 })
    else
      match (s.el x).next with
      | some h =>
          let s := s.setPrev h none
          let s := s.setTag x .noLRU
          let s := s.setNext x none
          some (s.setLst d { L with head := some h, items := sub64 L.items 1 })
      | none => none
  else
    if L.tail = some x then
      match (s.el x).prev with
      | some p =>
          let s := s.setNext p none
          let s := s.setTag x .noLRU
          let s := s.setPrev x none
          some (s.setLst d { L with tail := some p, items := sub64 L.items 1 })
      | none => none
    else
      match (s.el x).prev, (s.el x).next with
      | some p, some n =>
          let s := s.setNext p (some n)
          let s := s.setPrev n (some p)
          let s := s.setTag x .noLRU
          let s := s.setNext x none
          let s := s.setPrev x none
          some (s.setLst d { L with items := sub64 L.items 1 })
      | _, _ => none

/-- btree.go:1990-1996 `initNodeAsEvicted` (the case of a tree with a cache). -/
def init (s : LruS) (x : Id) : LruS :=
  { s with el := upd s.el x { tag := .noLRU, next := none, prev := none } }

/-- btree.go:2017-2067, the switch of `markNodeUsed`. -/
def used (s : LruS) (x : Id) : Option LruS :=
  match (s.el x).tag with
  | .noLRU => none
  | .cleanLRU => s.moveToTail false x
  | .dirtyLRU => s.moveToTail true x

/-- btree.go:2077-2161, the switch of `markNodeClean` (`d = false`), and btree.go:2177-2261, the
switch of `markNodeDirty` (`d = true`). -/
def place (s : LruS) (d : Bool) (x : Id) : Option LruS :=
  if (s.el x).tag = .noLRU then s.placeFresh d x
  else if (s.el x).tag = tagOf d then s.moveToTail d x
  else
    match s.unlink (!d) x with
    | none => none
    | some s => s.append d x

/-- btree.go:2269-2343, the switch of `markNodeEvicted`, and 2353-2427, that of
`markNodeToBeDiscarded`. -/
def drop (s : LruS) (x : Id) : Option LruS :=
  match (s.el x).tag with
  | .noLRU => none
  | .cleanLRU => s.remove false x
  | .dirtyLRU => s.remove true x

/-- NewBPlusTreeCache (btree_api.go:65-80): empty lists; every node starts with the zero
element. -/
def empty : LruS :=
  { el := fun _ => { tag := .noLRU, next := none, prev := none }
    clean := { head := none, tail := none, items := 0 }
    dirty := { head := none, tail := none, items := 0 } }

end LruS
end SM.BT

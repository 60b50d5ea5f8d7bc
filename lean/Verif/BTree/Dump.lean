import Verif.BTree.Model

/-!
Model of Dump of a B+Tree: /repo/btree_dump.go.

What is printed is a list of lines. A line here holds the values that are printed in it; lines that print addresses of structs
(`%p`) are left out, and so is the text around the values.
-/

namespace SM.BT

variable {K V : Type}

/-- What is printed. `depth` is the indentation. -/
inductive Line (K V : Type) where
  /-- btree_dump.go:12-39: limits and counts of the cache, whether the drainer is active -/
  | cache (low high clean dirty : Nat) (active : Bool)
  /-- btree_dump.go:41-43, `min` and `max` -/
  | tree (min max : Nat)
  /-- btree_dump.go:58-68; absent if the tree has no cache -/
  | tag (depth : Nat) (tag : Tag)
  /-- btree_dump.go:84-91 -/
  | node (depth : Nat) (ref : Ref) (items : Nat) (loaded dirty root leaf : Bool)
  /-- btree_dump.go:107-109; absent in the root -/
  | sum (depth : Nat) (items : Nat) (kvIndex : Int)
  /-- btree_dump.go:150 -/
  | key (depth : Nat) (i : Nat) (k : K)
  /-- btree_dump.go:157 -/
  | value (depth : Nat) (i : Nat) (v : V)
  /-- btree_dump.go:129 and 160: a child follows -/
  | child (depth : Nat)

/-- The items a dump shows: the keys directly followed by a value. -/
def shown : List (Line K V) → List (K × V)
  | .key _ _ k :: .value _ _ v :: l => (k, v) :: shown l
  | _ :: l => shown l
  | [] => []

/-- The client's DumpKey and DumpValue: what they fail on. -/
structure DumpCb (K V : Type) where
  keyFails : K → Bool
  valueFails : V → Bool

/-- btree_dump.go:58-125: what is printed of a node's own fields. -/
def dumpFields (τ : TreeId) (depth : Nat) (node : Id) : M K V (List (Line K V)) := fun w =>
  let n := w.node node
  let p := w.ps node
  (.ok ((if (w.trees τ).cached then [.tag depth (w.lru.el node).tag] else []) ++
      [.node depth n.ref n.items n.loaded n.dirty n.root n.leaf] ++
      (if n.root then [] else [.sum depth p.items p.kvIndex])), w)

/-- btree_dump.go:134-163: the loop over kvLLRB. `ok` of GetByIndex is not looked at: DumpKey would be called with nil; that is a panic
here. The error of dumpNode for a child is not looked at either. -/
def dumpLoop (cb : DumpCb K V) (depth : Nat) (leaf : Bool) (node : Id) (rec : Id → M K V (List (Line K V) × Option Err)) :
    Nat → Nat → M K V (List (Line K V) × Option Err)
  | _, 0 => pure ([], none)
  | i, m + 1 => do
      let (k, v) ← M.deref (← kvGetByIndex node i)
      if cb.keyFails k then return ([], some .codec)
      else if leaf then do
        let x ← asItem v
        if cb.valueFails x then return ([.key depth i k], some .codec)
        else do
          let r ← dumpLoop cb depth leaf node rec (i + 1) m
          return (.key depth i k :: .value depth i x :: r.1, r.2)
      else do
        let c ← asNode v
        let l ← rec c
        let r ← dumpLoop cb depth leaf node rec (i + 1) m
        return (.key depth i k :: .child depth :: (l.1 ++ r.1), r.2)

/-- btree_dump.go:127-132: the leftmost child; the error of dumpNode is not looked at. -/
def dumpLeft (depth : Nat) (n : NodeS K V) (rec : Id → M K V (List (Line K V) × Option Err)) : M K V (List (Line K V)) :=
  if n.leaf then pure []
  else
    match n.left with
    | none => pure []
    | some c => do
        let l ← rec c
        return .child depth :: l.1

/-- btree_dump.go:50-168 `dumpNode`: what is printed, and `err`. -/
def dumpNode (cmp : Compare K) (cb : DumpCb K V) (τ : TreeId) : Nat → Nat → Id → M K V (List (Line K V) × Option Err)
  | 0, _, _ => M.fatal
  | fuel + 1, depth, node => do
      match ← M.attempt (validateLoad cmp node) with
      | .error e => return ([], some e)
      | .ok () => do
          let a ← dumpFields τ depth node
          let n ← getN node
          let b ← dumpLeft depth n (dumpNode cmp cb τ fuel (depth + 1))
          let num ← kvLen node
          let c ← dumpLoop cb depth n.leaf node (dumpNode cmp cb τ fuel (depth + 1)) 0 num.toNat
          return (a ++ b ++ c.1, c.2)

/-- The lines about the cache, written only if the tree has one: limits, lengths of the two lists,
whether the drainer is running. btree_dump.go:12-39. -/
def dumpHead (cached : Bool) : M K V (List (Line K V)) := fun w =>
  (.ok (if cached then [.cache w.ctl.low w.ctl.high w.lru.clean.items w.lru.dirty.items w.ctl.active] else []), w)

/-- btree_dump.go:8-48 `Dump` -/
def dump (cmp : Compare K) (cb : DumpCb K V) (τ : TreeId) (fuel : Nat) : M K V (List (Line K V) × Option Err) := do
  let t ← getT τ
  let r ← rootOf τ
  let h ← dumpHead t.cached
  let l ← dumpNode cmp cb τ fuel 0 r
  return (h ++ [.tree t.min t.max] ++ l.1, l.2)

end SM.BT

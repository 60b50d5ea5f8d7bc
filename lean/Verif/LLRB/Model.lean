import Verif.Basic

/-!
Model of the left-leaning red-black tree: /repo/llrb_tree.go, /repo/llrb_validate.go.

A node has exactly one owner and no parent pointer, so the pointer structure is a value of an
inductive type; a Go function that updates nodes in place returns the updated tree here.
`Option` is "does not panic": `none` is a nil dereference or (for `delete`, `deleteMin`)
running out of fuel. The mutex (llrb_tree.go:34) is not part of this file; see
`Verif/Conc`. `len` is a Go `int`; it is modelled as an unbounded integer (it counts nodes in
memory). `LLRBTreeCallbacks` are only used by Dump; see Verif/LLRB/Dump.lean.
-/

namespace SM.LLRB

/-- llrb_tree.go:24-31 `llrbNodeStruct`; `nil` is the nil pointer. `red` is `color`
(llrb_tree.go:19-22: RED = true). -/
inductive Tree (K V : Type) where
  | nil
  | node (key : K) (val : V) (left right : Tree K V) (red : Bool) (len : Int)
  deriving DecidableEq, Repr

namespace Tree
variable {K V : Type}

/-- The recurring `0 if nil == x else x.len` (e.g. llrb_tree.go:56-59). -/
def len : Tree K V → Int
  | nil => 0
  | node _ _ _ _ _ n => n

/-- llrb_tree.go:694-700 `isRed` -/
def isRed : Tree K V → Bool
  | nil => false
  | node _ _ _ _ c _ => c

/-- llrb_tree.go:702-708 `isBlack` -/
def isBlack : Tree K V → Bool
  | nil => true
  | node _ _ _ _ c _ => !c

/-- Field access `x.left`; `none` if `x` is nil. -/
def left? : Tree K V → Option (Tree K V)
  | nil => none
  | node _ _ l _ _ _ => some l

/-- Field access `x.right`; `none` if `x` is nil. -/
def right? : Tree K V → Option (Tree K V)
  | nil => none
  | node _ _ _ r _ _ => some r

/-- `x.color = !x.color`; `none` if `x` is nil. -/
def toggle? : Tree K V → Option (Tree K V)
  | nil => none
  | node k v l r c n => some (node k v l r (!c) n)

/-- `if nil != x { x.color = BLACK }` (llrb_tree.go:222-224, 248-250) -/
def blacken : Tree K V → Tree K V
  | nil => nil
  | node k v l r _ n => node k v l r false n

/-- llrb_tree.go:710-714 `colorFlip` -/
def colorFlip : Tree K V → Option (Tree K V)
  | nil => none
  | node k v l r c n => do
      let l' ← l.toggle?
      let r' ← r.toggle?
      return node k v l' r' (!c) n

/-- llrb_tree.go:716-741 `rotateLeft` -/
def rotateLeft : Tree K V → Option (Tree K V)
  | node k v l (node rk rv rl rr _ rn) c n =>
      let nodesTransferred := rl.len
      let n1 := n - rn + nodesTransferred
      some (node rk rv (node k v l rl true n1) rr c (rn - nodesTransferred + n1))
  | _ => none

/-- llrb_tree.go:743-768 `rotateRight` -/
def rotateRight : Tree K V → Option (Tree K V)
  | node k v (node lk lv ll lr _ ln) r c n =>
      let nodesTransferred := lr.len
      let n1 := n - ln + nodesTransferred
      some (node lk lv ll (node k v lr r true n1) c (ln - nodesTransferred + n1))
  | _ => none

/-- llrb_tree.go:770-782 `moveRedLeft` -/
def moveRedLeft (t : Tree K V) : Option (Tree K V) := do
  match ← colorFlip t with
  | nil => none
  | node k v l r c n =>
      if (← r.left?).isRed then
        let r' ← rotateRight r
        let t' ← rotateLeft (node k v l r' c n)
        colorFlip t'
      else
        return node k v l r c n

/-- llrb_tree.go:784-795 `moveRedRight` -/
def moveRedRight (t : Tree K V) : Option (Tree K V) := do
  match ← colorFlip t with
  | nil => none
  | node k v l r c n =>
      if (← l.left?).isRed then
        let t' ← rotateRight (node k v l r c n)
        colorFlip t'
      else
        return node k v l r c n

/-- `isRed(x) && isRed(x.left)` for `x := t.left` (llrb_tree.go:803); `none` if `t` is nil. The
second conjunct is evaluated only if `x` is red, hence not nil. -/
def redRedLeft? : Tree K V → Option Bool
  | nil => none
  | node _ _ (node _ _ ll _ lc _) _ _ _ => some (lc && ll.isRed)
  | node _ _ nil _ _ _ => some false

/-- `isRed(t.left) && isRed(t.right)` (llrb_tree.go:806) -/
def redBoth? : Tree K V → Option Bool
  | nil => none
  | node _ _ l r _ _ => some (l.isRed && r.isRed)

/-- `isRed(t.right)` (llrb_tree.go:800) -/
def redRight? : Tree K V → Option Bool
  | nil => none
  | node _ _ _ r _ _ => some r.isRed

/-- llrb_tree.go:800-802 -/
def fixUp1 (t : Tree K V) : Option (Tree K V) := do
  if ← redRight? t then rotateLeft t else some t

/-- llrb_tree.go:803-805 -/
def fixUp2 (t : Tree K V) : Option (Tree K V) := do
  if ← redRedLeft? t then rotateRight t else some t

/-- llrb_tree.go:806-808 -/
def fixUp3 (t : Tree K V) : Option (Tree K V) := do
  if ← redBoth? t then colorFlip t else some t

/-- llrb_tree.go:797-811 `fixUp` -/
def fixUp (t : Tree K V) : Option (Tree K V) := do
  fixUp3 (← fixUp2 (← fixUp1 t))

/-- The three ways llrb_tree.go:462 `insert` returns. In the first two nothing has been
modified (the assignments at 489 and 503 are reached only when the recursion succeeded). -/
inductive InsRes (K V : Type) where
  | err (e : Err)
  | dup
  | ok (t : Tree K V)

/-- llrb_tree.go:462-523 `insert` -/
def insert (cmp : Compare K) (key : K) (value : V) : Tree K V → Option (InsRes K V)
  | nil => some (.ok (node key value nil nil true 0))
  | node k v l r c n =>
      match cmp key k with
      | .error e => some (.err e)
      | .ok res =>
          if res < 0 then do
            match ← insert cmp key value l with
            | .err e => return .err e
            | .dup => return .dup
            | .ok l' => return .ok (← fixUp (node k v l' r c n))
          else if res > 0 then do
            match ← insert cmp key value r with
            | .err e => return .err e
            | .dup => return .dup
            | .ok r' => return .ok (← fixUp (node k v l r' c n))
          else
            return .dup

/-- llrb_tree.go:525-546 `postInsertAdjustLen`; the returned error is ignored by both callers
(447, 536, 538), so it is dropped here, but the descent still stops at it. -/
def postInsertAdjustLen (cmp : Compare K) (key : K) : Tree K V → Option (Tree K V)
  | nil => none
  | node k v l r c n =>
      match cmp key k with
      | .error _ => some (node k v l r c (n + 1))
      | .ok res =>
          if res < 0 then do
            return node k v (← postInsertAdjustLen cmp key l) r c (n + 1)
          else if res > 0 then do
            return node k v l (← postInsertAdjustLen cmp key r) c (n + 1)
          else
            return node k v l r c (n + 1)

/-- llrb_tree.go:548-566 `preDeleteByIndexAdjustLen` -/
def preDeleteByIndexAdjustLen (index : Int) : Tree K V → Option (Tree K V × K)
  | nil => none
  | node k v l r c n =>
      let nodesOnLeft := l.len
      if index < nodesOnLeft then do
        let (l', key) ← preDeleteByIndexAdjustLen index l
        return (node k v l' r c (n - 1), key)
      else if index > nodesOnLeft then do
        let (r', key) ← preDeleteByIndexAdjustLen (index - nodesOnLeft - 1) r
        return (node k v l r' c (n - 1), key)
      else
        return (node k v l r c (n - 1), k)

/-- llrb_tree.go:568-607 `preDeleteByKeyAdjustLen`: `(tree, ok)` or the error (nothing has been
modified when an error comes back: every decrement follows a successful recursion). -/
def preDeleteByKeyAdjustLen (cmp : Compare K) (key : K) : Tree K V → Except Err (Tree K V × Bool)
  | nil => .ok (nil, false)
  | node k v l r c n =>
      match cmp key k with
      | .error e => .error e
      | .ok res =>
          if res < 0 then
            match preDeleteByKeyAdjustLen cmp key l with
            | .error e => .error e
            | .ok (l', ok) => .ok (node k v l' r c (if ok then n - 1 else n), ok)
          else if res > 0 then
            match preDeleteByKeyAdjustLen cmp key r with
            | .error e => .error e
            | .ok (r', ok) => .ok (node k v l r' c (if ok then n - 1 else n), ok)
          else
            .ok (node k v l r c (n - 1), true)

/-- `isBlack(x) && isBlack(x.left)` (llrb_tree.go:619, 643, 679), `none` if `x` is nil. -/
def blackBlack? (x : Tree K V) : Option Bool :=
  if x.isBlack then do return (← x.left?).isBlack else some false

/-- llrb_tree.go:619-621 and 679-681: `moveRedLeft` if left and left.left are black. -/
def prepLeft (t : Tree K V) : Option (Tree K V) := do
  if ← blackBlack? (← t.left?) then moveRedLeft t else some t

/-- llrb_tree.go:668-690 `deleteMin`. The recursion is on a subtree of a rotated tree, so it is
bounded by fuel. -/
def deleteMin : Nat → Tree K V → Option (Tree K V × K × V)
  | 0, _ => none
  | _ + 1, nil => none
  | _ + 1, node k v nil _ _ _ => some (nil, k, v)
  | fuel + 1, t => do
      match ← prepLeft t with
      | nil => none
      | node k v l r c n => do
          let (l', mk, mv) ← deleteMin fuel l
          return (← fixUp (node k v l' r c (n - 1)), mk, mv)

/-- `cmp key t.Key`; `none` if `t` is nil. -/
def cmpRoot? (cmp : Compare K) (key : K) : Tree K V → Option (Except Err Int)
  | nil => none
  | node k _ _ _ _ _ => some (cmp key k)

/-- `nil == x` -/
def isNil : Tree K V → Bool
  | nil => true
  | node .. => false

/-- llrb_tree.go:628-636: rotate right if the left child is red, and compare again; `res` is
the result of the previous comparison. -/
def deleteStep1 (cmp : Compare K) (key : K) (res : Int) (t : Tree K V) :
    Option (Tree K V × Except Err Int) := do
  if (← t.left?).isRed then
    let t1 ← rotateRight t
    return (t1, ← cmpRoot? cmp key t1)
  else
    return (t, .ok res)

/-- llrb_tree.go:643-651: `moveRedRight` if right and right.left are black, and compare
again. -/
def deleteStep2 (cmp : Compare K) (key : K) (res : Int) (t : Tree K V) :
    Option (Tree K V × Except Err Int) := do
  if ← blackBlack? (← t.right?) then
    let t1 ← moveRedRight t
    return (t1, ← cmpRoot? cmp key t1)
  else
    return (t, .ok res)

/-- llrb_tree.go:609-666 `delete`: the returned tree (also when an error is returned: the
caller stores it, 217, 244, 623, 655) and the error. -/
def delete (cmp : Compare K) (key : K) : Nat → Tree K V → Option (Tree K V × Option Err)
  | 0, _ => none
  | fuel + 1, t => do
      match ← cmpRoot? cmp key t with
      | .error e => return (t, some e)
      | .ok res =>
          if res < 0 then
            match ← prepLeft t with
            | nil => none
            | node k v l r c n =>
                match ← delete cmp key fuel l with
                | (l', some e) => return (node k v l' r c n, some e)
                | (l', none) => return (← fixUp (node k v l' r c n), none)
          else
            match ← deleteStep1 cmp key res t with
            | (t1, .error e) => return (t1, some e)
            | (t1, .ok res1) =>
                -- 637-642
                if res1 = 0 ∧ (← t1.right?).isNil then return (nil, none)
                else
                  match ← deleteStep2 cmp key res1 t1 with
                  | (t2, .error e) => return (t2, some e)
                  | (nil, .ok _) => none
                  | (node k v l r c n, .ok res2) =>
                      if res2 = 0 then
                        let (r', mk, mv) ← deleteMin fuel r
                        return (← fixUp (node mk mv l r' c n), none)
                      else
                        match ← delete cmp key fuel r with
                        | (r', some e) => return (node k v l r' c n, some e)
                        | (r', none) => return (← fixUp (node k v l r' c n), none)

/-- Number of nodes: enough fuel for `delete`, each call going to a strict subtree of a
rearrangement of the same nodes. -/
def size : Tree K V → Nat
  | nil => 0
  | node _ _ l r _ _ => l.size + r.size + 1

/-! ### The API: each returns the Go results and the new `tree.root`. -/

/-- llrb_tree.go:67-119, the loop of `BisectLeft`, entered with a non-nil node. -/
def bisectLeftLoop (cmp : Compare K) (key : K) : Tree K V → Int → Option (Int × Bool × Option Err)
  | nil, _ => none
  | node k _ l r _ _, nodeIndex =>
      match cmp key k with
      | .error e => some (0, false, some e)
      | .ok res =>
          if res = 0 then some (nodeIndex, true, none)
          else if res < 0 then
            match l with
            | nil => some (nodeIndex - 1, false, none)
            | node _ _ _ lr _ _ => bisectLeftLoop cmp key l (nodeIndex - lr.len - 1)
          else
            match r with
            | nil => some (nodeIndex, false, none)
            | node _ _ rl _ _ _ => bisectLeftLoop cmp key r (nodeIndex + rl.len + 1)

/-- llrb_tree.go:42-120 `BisectLeft` -/
def bisectLeft (cmp : Compare K) (key : K) (t : Tree K V) : Option (Int × Bool × Option Err) :=
  match t with
  | nil => some (-1, false, none)
  | node _ _ l _ _ _ => bisectLeftLoop cmp key t l.len

/-- llrb_tree.go:147-199, the loop of `BisectRight`. -/
def bisectRightLoop (cmp : Compare K) (key : K) : Tree K V → Int → Option (Int × Bool × Option Err)
  | nil, _ => none
  | node k _ l r _ _, nodeIndex =>
      match cmp key k with
      | .error e => some (0, false, some e)
      | .ok res =>
          if res = 0 then some (nodeIndex, true, none)
          else if res < 0 then
            match l with
            | nil => some (nodeIndex, false, none)
            | node _ _ _ lr _ _ => bisectRightLoop cmp key l (nodeIndex - lr.len - 1)
          else
            match r with
            | nil => some (nodeIndex + 1, false, none)
            | node _ _ rl _ _ _ => bisectRightLoop cmp key r (nodeIndex + rl.len + 1)

/-- llrb_tree.go:122-200 `BisectRight` -/
def bisectRight (cmp : Compare K) (key : K) (t : Tree K V) : Option (Int × Bool × Option Err) :=
  match t with
  | nil => some (0, false, none)
  | node _ _ l _ _ _ => bisectRightLoop cmp key t l.len

/-- llrb_tree.go:202-229 `DeleteByIndex` -/
def deleteByIndex (cmp : Compare K) (index : Int) (t : Tree K V) :
    Option ((Bool × Option Err) × Tree K V) :=
  if index < 0 ∨ t.isNil ∨ index ≥ t.len then some ((false, none), t)
  else do
    let (t1, key) ← preDeleteByIndexAdjustLen index t
    match ← delete cmp key t1.size t1 with
    | (t2, some e) => return ((true, some e), t2)
    | (t2, none) => return ((true, none), t2.blacken)

/-- llrb_tree.go:231-253 `DeleteByKey` -/
def deleteByKey (cmp : Compare K) (key : K) (t : Tree K V) :
    Option ((Bool × Option Err) × Tree K V) :=
  match preDeleteByKeyAdjustLen cmp key t with
  | .error e => some ((false, some e), t)
  | .ok (t1, false) => some ((false, none), t1)
  | .ok (t1, true) => do
      match ← delete cmp key t1.size t1 with
      | (t2, some e) => return ((true, some e), t2)
      | (t2, none) => return ((true, none), t2.blacken)

/-- llrb_tree.go:278-299, the loop of `GetByIndex`. -/
def getByIndexLoop (index : Int) : Tree K V → Int → Option (K × V)
  | nil, _ => none
  | node k v l r _ _, nodeIndex =>
      if nodeIndex = index then some (k, v)
      else if nodeIndex > index then
        match l with
        | nil => none
        | node _ _ _ lr _ _ => getByIndexLoop index l (nodeIndex - lr.len - 1)
      else
        match r with
        | nil => none
        | node _ _ rl _ _ _ => getByIndexLoop index r (nodeIndex + rl.len + 1)

/-- llrb_tree.go:255-302 `GetByIndex`: outer `none` = panic, inner = `ok`. -/
def getByIndex (index : Int) (t : Tree K V) : Option (Option (K × V)) :=
  match t with
  | nil => some none
  | node _ _ l _ _ n =>
      if index < 0 ∨ index ≥ n then some none
      else (getByIndexLoop index t l.len).map some

/-- llrb_tree.go:304-338 `GetByKey` -/
def getByKey (cmp : Compare K) (key : K) : Tree K V → Option V × Option Err
  | nil => (none, none)
  | node k v l r _ _ =>
      match cmp key k with
      | .error e => (none, some e)
      | .ok res =>
          if res < 0 then getByKey cmp key l
          else if res > 0 then getByKey cmp key r
          else (some v, none)

/-- llrb_tree.go:376-396, the loop of `PatchByIndex`. -/
def patchByIndexLoop (index : Int) (value : V) : Tree K V → Int → Option (Tree K V)
  | nil, _ => none
  | node k v l r c n, nodeIndex =>
      if nodeIndex = index then some (node k value l r c n)
      else if nodeIndex > index then
        match l with
        | nil => none
        | node _ _ _ lr _ _ => do
            return node k v (← patchByIndexLoop index value l (nodeIndex - lr.len - 1)) r c n
      else
        match r with
        | nil => none
        | node _ _ rl _ _ _ => do
            return node k v l (← patchByIndexLoop index value r (nodeIndex + rl.len + 1)) c n

/-- llrb_tree.go:355-399 `PatchByIndex` -/
def patchByIndex (index : Int) (value : V) (t : Tree K V) :
    Option ((Bool × Option Err) × Tree K V) :=
  match t with
  | nil => some ((false, none), nil)
  | node _ _ l _ _ n =>
      if index < 0 ∨ index ≥ n then some ((false, none), t)
      else do return ((true, none), ← patchByIndexLoop index value t l.len)

/-- llrb_tree.go:401-434 `PatchByKey` -/
def patchByKey (cmp : Compare K) (key : K) (value : V) :
    Tree K V → (Bool × Option Err) × Tree K V
  | nil => ((false, none), nil)
  | node k v l r c n =>
      match cmp key k with
      | .error e => ((false, some e), node k v l r c n)
      | .ok res =>
          if res < 0 then
            let (a, l') := patchByKey cmp key value l
            (a, node k v l' r c n)
          else if res > 0 then
            let (a, r') := patchByKey cmp key value r
            (a, node k v l r' c n)
          else ((true, none), node k value l r c n)

/-- llrb_tree.go:436-454 `Put` -/
def put (cmp : Compare K) (key : K) (value : V) (t : Tree K V) :
    Option ((Bool × Option Err) × Tree K V) := do
  match ← insert cmp key value t with
  | .err e => return ((false, some e), t)
  | .dup => return ((false, none), t)
  | .ok t1 =>
      let t2 ← postInsertAdjustLen cmp key t1
      return ((true, none), t2.blacken)

/-- llrb_validate.go:8-50 `Validate` -/
def validate : Tree K V → Option Err
  | nil => none
  | node _ _ l r _ n =>
      match l.validate with
      | some e => some e
      | none =>
          match r.validate with
          | some e => some e
          | none => if 1 + l.len + r.len ≠ n then some (.invalid 45) else none

end Tree
end SM.LLRB

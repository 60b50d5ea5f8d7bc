import Verif.BTree.Model

/-!
The bytes of a node: what postNode hands to PutNode and what loadNode makes of them (btree.go:69-89, 2717-3053).

`Verif/BTree/Model.lean` keeps on disk the parsed node; here is the same code working on bytes, `loadNodeB` and `postNodeB`, and the proof
that it is the same. The client stores bytes: `getBytes` and `putBytes` are GetNode and PutNode on a storage that holds, where the model has
the parsed node `d`, the bytes `encode d`.

`cstruct` is an external package; its Pack and Unpack are modelled as documented: fields in order without padding, `uint64` as eight bytes
least significant first (btree_api.go:13), `bool` as one byte, a trailing `[]byte` as the rest of the buffer. Unpack fails if the buffer is
too short. Simplified: the fields of a node are unbounded numbers, so that the theorems ask for them to fit (`Fits`), as `uint64` always does.
-/

namespace SM.BT

/-- `[]byte` -/
abbrev Bytes := List UInt8

/-- cstruct.Pack of an unsigned integer of `k` bytes, little endian. -/
def le : Nat → Nat → Bytes
  | 0, _ => []
  | k + 1, n => UInt8.ofNat n :: le k (n / 256)

/-- cstruct.Unpack of the same. -/
def unle : Bytes → Nat
  | [] => 0
  | b :: l => b.toNat + 256 * unle l

/-- cstruct.Pack of an onDiskUint64Struct (btree.go:69-71). -/
def u64 (n : Nat) : Bytes := le 8 n

/-- cstruct.Unpack of it: fails if the buffer is too short. Value and what is left. -/
def takeU64 (p : Bytes) : Option (Nat × Bytes) := if p.length < 8 then none else some (unle (p.take 8), p.drop 8)

/-- cstruct.Pack of a bool. -/
def boolB (b : Bool) : Bytes := [if b then 1 else 0]

/-- cstruct.Unpack of it. -/
def takeBool : Bytes → Option (Bool × Bytes)
  | [] => none
  | b :: p => some (b != 0, p)

/-- cstruct.Pack of an onDiskReferenceToNodeStruct (btree.go:73-78). -/
def refB (c : Ref × Nat) : Bytes := u64 c.1.num ++ u64 c.1.off ++ u64 c.1.len ++ u64 c.2

/-- cstruct.Unpack of it. -/
def takeRef (p : Bytes) : Option ((Ref × Nat) × Bytes) := do
  let (n, p) ← takeU64 p
  let (o, p) ← takeU64 p
  let (l, p) ← takeU64 p
  let (i, p) ← takeU64 p
  return ((⟨n, o, l⟩, i), p)

/-- cstruct.Pack of the fields of an onDiskNodeStruct before the payload (btree.go:80-83). -/
def headB (items : Nat) (root leaf : Bool) : Bytes := u64 items ++ boolB root ++ boolB leaf

/-- cstruct.Unpack of an onDiskNodeStruct; what is left is the payload. -/
def takeHead (p : Bytes) : Option ((Nat × Bool × Bool) × Bytes) := do
  let (n, p) ← takeU64 p
  let (r, p) ← takeBool p
  let (l, p) ← takeBool p
  return ((n, r, l), p)

/-- The client's PackKey, UnpackKey, PackValue, UnpackValue (btree_api.go:45-48) when they do not fail of themselves; an unpack callback
returns the number of bytes consumed, and fails if it cannot make sense of the buffer. -/
structure Codec (K V : Type) where
  packKey : K → Bytes
  unpackKey : Bytes → Option (K × Nat)
  packValue : V → Bytes
  unpackValue : Bytes → Option (V × Nat)

/-- The unpack callbacks undo the pack callbacks, whatever follows in the buffer, and say how many bytes that took. -/
structure Codec.Inverse {K V : Type} (C : Codec K V) : Prop where
  key : ∀ k p, C.unpackKey (C.packKey k ++ p) = some (k, (C.packKey k).length)
  value : ∀ v p, C.unpackValue (C.packValue v ++ p) = some (v, (C.packValue v).length)

section
variable {K V : Type} (C : Codec K V)

/-! ### The format -/

/-- btree.go:85, 2923-2946: the items of a leaf. -/
def itemBytes (l : List (K × V)) : Bytes := l.flatMap fun x => C.packKey x.1 ++ C.packValue x.2

/-- btree.go:88, 2994-3031: the children but the first. -/
def kidBytes (l : List (K × (Ref × Nat))) : Bytes := l.flatMap fun x => C.packKey x.1 ++ refB x.2

/-- btree.go:84-88: the payload but for maxKeysPerNode. -/
def bodyBytes : DiskBody K V → Bytes
  | .leaf l => u64 l.length ++ itemBytes C l
  | .inner c0 cs => u64 (1 + cs.length) ++ (refB c0 ++ kidBytes C cs)
  | .none => u64 0

/-- btree.go:80-89: the bytes of a node. -/
def encode (d : DiskNode K V) : Bytes :=
  headB d.items d.root d.body.isLeaf ++ ((if d.root then u64 d.max else []) ++ bodyBytes C d.body)

/-- Length of the payload, the parameter of `postNode`. -/
def payloadSize (d : DiskNode K V) : Nat := (if d.root then 8 else 0) + (bodyBytes C d.body).length

/-- Every number of a node fits its field. A node that is no root has no maxKeysPerNode. -/
structure Fits (d : DiskNode K V) : Prop where
  items : d.items < 2 ^ 64
  max : d.max < 2 ^ 64
  root : d.root = false → d.max = 0
  leaf : ∀ l, d.body = .leaf l → l.length < 2 ^ 64
  inner : ∀ c0 cs, d.body = .inner c0 cs → 1 + cs.length < 2 ^ 64 ∧
    ∀ c ∈ c0 :: cs.map Prod.snd, c.1.num < 2 ^ 64 ∧ c.1.off < 2 ^ 64 ∧ c.1.len < 2 ^ 64 ∧ c.2 < 2 ^ 64

/-! ### loadNode on bytes -/

/-- A result of cstruct.Unpack, which the environment may also make fail. -/
def unpackAs {α : Type} (r : Option α) : M K V α := do
  unpack
  match r with
  | some a => pure a
  | none => M.throw .codec

/-- `payload = payload[bytesConsumed:]` after a call of an unpack callback; the slice expression panics if that is too much. -/
def unpackBy {α : Type} (r : Option (α × Nat)) (p : Bytes) : M K V (α × Bytes) := do
  let (a, n) ← unpackAs r
  if n ≤ p.length then return (a, p.drop n) else M.fatal

/-- The client's GetNode. -/
def getBytes (r : Ref) : M K V Bytes := do return encode C (← getNode r)

/-- btree.go:2764-2788 -/
def loadLeafLoopB (cmp : Compare K) (node : Id) : Nat → Bytes → M K V Bytes
  | 0, p => pure p
  | n + 1, p => do
      let (k, p) ← unpackBy (C.unpackKey p) p
      let (v, p) ← unpackBy (C.unpackValue p) p
      let ok ← kvPut cmp node k (.item v)
      M.check 2785 ok
      loadLeafLoopB cmp node n p

/-- btree.go:2826-2857 -/
def loadInnerLoopB (cmp : Compare K) (τ : TreeId) (node : Id) : Nat → Bytes → M K V Bytes
  | 0, p => pure p
  | n + 1, p => do
      let (k, p) ← unpackBy (C.unpackKey p) p
      let (c, p) ← unpackAs (takeRef p)
      let i ← alloc (childStruct (← getN node).tree node c)
      kvPutIgnore cmp node k (.node i)
      initNodeAsEvicted τ i
      loadInnerLoopB cmp τ node n p

/-- btree.go:2744-2755 -/
def loadMaxB (τ : TreeId) (root : Bool) (p : Bytes) : M K V Bytes :=
  if root then do
    let (max, p) ← unpackAs (takeU64 p)
    modT τ fun t => { t with min := max / 2, max := max }
    return p
  else pure p

/-- btree.go:2757-2790 -/
def loadLeafB (cmp : Compare K) (node : Id) (p : Bytes) : M K V Bytes := do
  let (n, p) ← unpackAs (takeU64 p)
  let p ← loadLeafLoopB C cmp node n p
  modN node fun n => { n with psRoot := none }
  return p

/-- btree.go:2791-2861 -/
def loadInnerB (cmp : Compare K) (τ : TreeId) (node : Id) (p : Bytes) : M K V Bytes := do
  let (n, p) ← unpackAs (takeU64 p)
  if n = 0 then do
    modN node fun n => { n with left := none }
    return p
  else do
    let (c, p) ← unpackAs (takeRef p)
    let i ← alloc (childStruct (← getN node).tree node c)
    modN node fun n => { n with left := some i }
    initNodeAsEvicted τ i
    let p ← loadInnerLoopB C cmp τ node (n - 1) p
    arrangeIgnore node
    return p

/-- btree.go:2731-2874: loadNode once GetNode has returned. -/
def loadBytes (cmp : Compare K) (τ : TreeId) (node : Id) (bytes : Bytes) : M K V Unit := do
  modN node fun n => { n with kv := some .nil }
  let ((items, root, leaf), p) ← unpackAs (takeHead bytes)
  modN node fun n => { n with items := items, root := root, leaf := leaf }
  let p ← loadMaxB τ root p
  let p ← (if leaf then loadLeafB C cmp node p else loadInnerB C cmp τ node p)
  (if p.length ≠ 0 then M.throw (.logic 2864) else pure ())
  modN node fun n => { n with loaded := true }
  markNodeClean τ node

/-- btree.go:2717-2874 `loadNode` -/
def loadNodeB (cmp : Compare K) (τ : TreeId) (node : Id) : M K V Unit := do
  loadBytes C cmp τ node (← getBytes C (← getN node).ref)

/-! ### postNode on bytes -/

/-- btree.go:2923-2946 -/
def postLeafLoopB (node : Id) : Nat → Nat → Bytes → M K V Bytes
  | _, 0, p => pure p
  | i, k + 1, p => do
      let (key, v) ← M.must 2930 (← kvGetByIndex node i)
      match v with
      | .node _ => M.fatal
      | .item v => do
          pack
          pack
          postLeafLoopB node (i + 1) k (p ++ C.packKey key ++ C.packValue v)

/-- btree.go:2994-3031 -/
def postInnerLoopB (node : Id) : Nat → Nat → Bytes → M K V Bytes
  | _, 0, p => pure p
  | i, k + 1, p => do
      let (key, v) ← M.must 3001 (← kvGetByIndex node i)
      pack
      let c ← postRef 3015 (← asNode v)
      postInnerLoopB node (i + 1) k (p ++ C.packKey key ++ refB c)

/-- btree.go:2906-3033 -/
def postBodyB (node : Id) (p : Bytes) : M K V Bytes := do
  let n ← getN node
  let num ← kvLen node
  if n.leaf then do
    pack
    postLeafLoopB C node 0 num.toNat (p ++ u64 num.toNat)
  else
    match n.left with
    | none => do
        M.check 2958 (num = 0)
        pack
        return p ++ u64 0
    | some l => do
        pack
        let c0 ← postRef 2978 l
        postInnerLoopB C node 0 num.toNat (p ++ u64 (1 + num.toNat) ++ refB c0)

/-- loadNode's reading of a node, apart from what it does to the heap: `none` if it fails. -/
def decodeItems : Nat → Bytes → Option (List (K × V) × Bytes)
  | 0, p => some ([], p)
  | n + 1, p => do
      let (k, a) ← C.unpackKey p
      let p := p.drop a
      let (v, b) ← C.unpackValue p
      let (l, p) ← decodeItems n (p.drop b)
      return ((k, v) :: l, p)

/-- Likewise for the children but the first. -/
def decodeKids : Nat → Bytes → Option (List (K × (Ref × Nat)) × Bytes)
  | 0, p => some ([], p)
  | n + 1, p => do
      let (k, a) ← C.unpackKey p
      let (c, p) ← takeRef (p.drop a)
      let (l, p) ← decodeKids n p
      return ((k, c) :: l, p)

/-- Likewise for the payload of a leaf or a non-leaf. -/
def decodeBody (leaf : Bool) (p : Bytes) : Option (DiskBody K V × Bytes) := do
  let (n, p) ← takeU64 p
  if leaf then
    let (l, p) ← decodeItems C n p
    return (.leaf l, p)
  else if n = 0 then return (.none, p)
  else
    let (c, p) ← takeRef p
    let (l, p) ← decodeKids C (n - 1) p
    return (.inner c l, p)

/-- btree.go:2733-2866: what the bytes of a node say. The whole buffer has to be used up. -/
def decode (p : Bytes) : Option (DiskNode K V) := do
  let ((items, root, leaf), p) ← takeHead p
  let (max, p) ← (if root then takeU64 p else some (0, p))
  let (body, p) ← decodeBody C leaf p
  if p.length ≠ 0 then none else return { items := items, root := root, max := max, body := body }

/-- The client's PutNode: the node stored is the one the bytes stand for. (Bytes that stand for none cannot be represented; postNode, it is
proved, never comes up with any.) -/
def putBytes (bytes : Bytes) : M K V Ref :=
  match decode C bytes with
  | some d => putNode d bytes.length
  | none => M.fatal

/-- btree.go:2876-3053 `postNode` -/
def postNodeB (τ : TreeId) (node : Id) : M K V Unit := do
  let n ← getN node
  if !n.dirty then pure ()
  else do
    let t ← getT τ
    (if n.root then pack else pure ())
    let p ← postBodyB C node (if n.root then u64 t.max else [])
    pack
    let r ← putBytes C (headB n.items n.root n.leaf ++ p)
    modN node fun n => { n with ref := r }
    markNodeClean τ node

end

/-! ### Proofs -/

theorem le_length (k n : Nat) : (le k n).length = k := by
  induction k generalizing n with
  | zero => rfl
  | succ k ih => simp [le, ih]

theorem u64_length (n : Nat) : (u64 n).length = 8 := le_length 8 n

theorem unle_le (k n : Nat) (h : n < 256 ^ k) : unle (le k n) = n := by
  induction k generalizing n with
  | zero => simp [le, unle] at *; omega
  | succ k ih =>
    rw [le, unle, ih _ (by rw [Nat.pow_succ] at h; omega)]
    simp only [UInt8.toNat_ofNat']
    omega

theorem takeU64_u64 {n : Nat} (h : n < 2 ^ 64) (p : Bytes) : takeU64 (u64 n ++ p) = some (n, p) := by
  have hl := u64_length n
  rw [takeU64, if_neg (by simp [hl])]
  rw [List.take_left' hl, List.drop_left' hl, u64, unle_le 8 n (by simpa using h)]

theorem takeBool_boolB (b : Bool) (p : Bytes) : takeBool (boolB b ++ p) = some (b, p) := by
  cases b <;> simp [boolB, takeBool]

theorem takeRef_refB {c : Ref × Nat} (h : c.1.num < 2 ^ 64 ∧ c.1.off < 2 ^ 64 ∧ c.1.len < 2 ^ 64 ∧ c.2 < 2 ^ 64) (p : Bytes) :
    takeRef (refB c ++ p) = some (c, p) := by
  obtain ⟨h1, h2, h3, h4⟩ := h
  simp only [takeRef, refB, List.append_assoc, takeU64_u64 h1, takeU64_u64 h2, takeU64_u64 h3, takeU64_u64 h4, Option.pure_def, Option.bind_eq_bind,
    Option.bind_some]

theorem takeHead_headB {items : Nat} (h : items < 2 ^ 64) (root leaf : Bool) (p : Bytes) :
    takeHead (headB items root leaf ++ p) = some ((items, root, leaf), p) := by
  simp only [takeHead, headB, List.append_assoc, takeU64_u64 h, takeBool_boolB, Option.pure_def, Option.bind_eq_bind, Option.bind_some]

section
variable {K V : Type} {C : Codec K V}

theorem decodeItems_itemBytes (hC : C.Inverse) (l : List (K × V)) (p : Bytes) : decodeItems C l.length (itemBytes C l ++ p) = some (l, p) := by
  induction l with
  | nil => rfl
  | cons x l ih =>
    have e : itemBytes C (x :: l) ++ p = C.packKey x.1 ++ (C.packValue x.2 ++ (itemBytes C l ++ p)) := by simp [itemBytes]
    rw [List.length_cons, decodeItems, e, hC.key]
    simp only [Option.pure_def, Option.bind_eq_bind, Option.bind_some, List.drop_left, hC.value, ih]

theorem decodeKids_kidBytes (hC : C.Inverse) (l : List (K × (Ref × Nat)))
    (h : ∀ c ∈ l.map Prod.snd, c.1.num < 2 ^ 64 ∧ c.1.off < 2 ^ 64 ∧ c.1.len < 2 ^ 64 ∧ c.2 < 2 ^ 64) (p : Bytes) :
    decodeKids C l.length (kidBytes C l ++ p) = some (l, p) := by
  induction l with
  | nil => rfl
  | cons x l ih =>
    have e : kidBytes C (x :: l) ++ p = C.packKey x.1 ++ (refB x.2 ++ (kidBytes C l ++ p)) := by simp [kidBytes]
    rw [List.length_cons, decodeKids, e, hC.key]
    simp only [Option.pure_def, Option.bind_eq_bind, Option.bind_some, List.drop_left, takeRef_refB (h x.2 (by simp)),
      ih fun c hc => h c (by simp only [List.map_cons, List.mem_cons]; exact .inr hc)]

theorem decodeBody_bodyBytes (hC : C.Inverse) {d : DiskNode K V} (h : Fits d) (p : Bytes) :
    decodeBody C d.body.isLeaf (bodyBytes C d.body ++ p) = some (d.body, p) := by
  unfold decodeBody
  rcases hb : d.body with l | ⟨c0, cs⟩ | _
  · simp only [bodyBytes, DiskBody.isLeaf, List.append_assoc, takeU64_u64 (h.leaf l hb), decodeItems_itemBytes hC, Option.pure_def, Option.bind_eq_bind,
      Option.bind_some, if_true]
  · obtain ⟨h1, h2⟩ := h.inner c0 cs hb
    have e : 1 + cs.length - 1 = cs.length := by omega
    have e' : ¬1 + cs.length = 0 := by omega
    simp only [bodyBytes, DiskBody.isLeaf, List.append_assoc, takeU64_u64 h1, takeRef_refB (h2 c0 (by simp)), e, e',
      decodeKids_kidBytes hC cs (fun c hc => h2 c (List.mem_cons_of_mem _ hc)), Option.pure_def, Option.bind_eq_bind, Option.bind_some, if_false,
      Bool.false_eq_true]
  · simp only [bodyBytes, DiskBody.isLeaf, takeU64_u64 (by decide : 0 < 2 ^ 64), Option.pure_def, Option.bind_eq_bind, Option.bind_some, if_false, if_true,
      Bool.false_eq_true]

/-- The bytes of a node, and what may follow. -/
theorem decode_encode_append (hC : C.Inverse) {d : DiskNode K V} (h : Fits d) (p : Bytes) :
    decode C (encode C d ++ p) = if p.length ≠ 0 then none else some d := by
  obtain ⟨items, root, max, body⟩ := d
  have hb := decodeBody_bodyBytes hC h p
  unfold decode encode
  rw [List.append_assoc, takeHead_headB h.items, List.append_assoc]
  cases root with
  | true =>
    simp only [if_true, takeU64_u64 h.max, hb, Option.bind_eq_bind, Option.bind_some, Option.pure_def]
  | false =>
    have := h.root rfl
    simp only at this
    subst this
    simp only [Bool.false_eq_true, if_false, List.nil_append, hb, Option.bind_eq_bind, Option.bind_some, Option.pure_def]

theorem encode_length (d : DiskNode K V) : (encode C d).length = payloadSize C d + 10 := by
  unfold encode headB payloadSize
  cases d.root <;> simp [u64_length, boolB] <;> omega

/-! #### loadNode -/

instance : LawfulMonad (M K V) := LawfulMonad.mk' (M K V)
  (id_map := by
    intro α x
    funext w
    show (M.bind x _) w = _
    unfold M.bind
    rcases x w with ⟨_ | _ | _, w'⟩ <;> rfl)
  (pure_bind := by intros; rfl)
  (bind_assoc := by
    intro α β γ x f g
    funext w
    show (M.bind (M.bind x f) g) w = (M.bind x fun a => M.bind (f a) g) w
    unfold M.bind
    rcases x w with ⟨_ | _ | _, w'⟩ <;> rfl)

theorem unpackAs_some {α : Type} (a : α) : (unpackAs (some a) : M K V α) = (do unpack; return a) := rfl

theorem unpackBy_some {α : Type} (a : α) {p q : Bytes} : (unpackBy (some (a, p.length)) (p ++ q) : M K V (α × Bytes)) = (do unpack; return (a, q)) := by
  unfold unpackBy
  rw [unpackAs_some]
  simp

theorem loadLeafLoopB_eq (hC : C.Inverse) (cmp : Compare K) (node : Id) (l : List (K × V)) (p : Bytes) :
    loadLeafLoopB C cmp node l.length (itemBytes C l ++ p) = (do loadLeafLoop cmp node l; return p) := by
  induction l with
  | nil => simp [loadLeafLoopB, loadLeafLoop, itemBytes]
  | cons x l ih =>
    have e : itemBytes C (x :: l) ++ p = C.packKey x.1 ++ (C.packValue x.2 ++ (itemBytes C l ++ p)) := by simp [itemBytes]
    obtain ⟨k, v⟩ := x
    rw [List.length_cons, loadLeafLoopB, loadLeafLoop, e, hC.key, unpackBy_some]
    simp only [bind_assoc, pure_bind, hC.value, unpackBy_some, ih]

theorem loadInnerLoopB_eq (hC : C.Inverse) (cmp : Compare K) (τ : TreeId) (node : Id) (l : List (K × (Ref × Nat)))
    (h : ∀ c ∈ l.map Prod.snd, c.1.num < 2 ^ 64 ∧ c.1.off < 2 ^ 64 ∧ c.1.len < 2 ^ 64 ∧ c.2 < 2 ^ 64) (p : Bytes) :
    loadInnerLoopB C cmp τ node l.length (kidBytes C l ++ p) = (do loadInnerLoop cmp τ node l; return p) := by
  induction l with
  | nil => simp [loadInnerLoopB, loadInnerLoop, kidBytes]
  | cons x l ih =>
    have e : kidBytes C (x :: l) ++ p = C.packKey x.1 ++ (refB x.2 ++ (kidBytes C l ++ p)) := by simp [kidBytes]
    obtain ⟨k, c⟩ := x
    rw [List.length_cons, loadInnerLoopB, loadInnerLoop, e, hC.key, unpackBy_some]
    simp only [bind_assoc, pure_bind, takeRef_refB (h c (by simp)), unpackAs_some,
      ih fun c hc => h c (by simp only [List.map_cons, List.mem_cons]; exact .inr hc)]

theorem loadMaxB_eq {d : DiskNode K V} (h : Fits d) (τ : TreeId) (p : Bytes) :
    (loadMaxB τ d.root ((if d.root then u64 d.max else []) ++ p) : M K V Bytes) = (do loadMax τ d; return p) := by
  unfold loadMaxB loadMax
  cases d.root with
  | true => simp [takeU64_u64 h.max, unpackAs_some]
  | false => simp

theorem loadBodyB_eq (hC : C.Inverse) {d : DiskNode K V} (h : Fits d) (cmp : Compare K) (τ : TreeId) (node : Id) (p : Bytes) :
    (if d.body.isLeaf then loadLeafB C cmp node (bodyBytes C d.body ++ p) else loadInnerB C cmp τ node (bodyBytes C d.body ++ p)) =
      (do loadBody cmp τ node d.body; return p) := by
  rcases hb : d.body with l | ⟨c0, cs⟩ | _
  · simp only [DiskBody.isLeaf, if_true, loadLeafB, loadBody, bodyBytes, List.append_assoc, takeU64_u64 (h.leaf l hb), unpackAs_some, bind_assoc, pure_bind,
      loadLeafLoopB_eq hC]
  · obtain ⟨h1, h2⟩ := h.inner c0 cs hb
    have e : 1 + cs.length - 1 = cs.length := by omega
    have e' : ¬1 + cs.length = 0 := by omega
    simp only [DiskBody.isLeaf, Bool.false_eq_true, if_false, loadInnerB, loadBody, bodyBytes, List.append_assoc, takeU64_u64 h1, unpackAs_some, bind_assoc,
      pure_bind, e, e', takeRef_refB (h2 c0 (by simp)), loadInnerLoopB_eq hC cmp τ node cs (fun c hc => h2 c (List.mem_cons_of_mem _ hc))]
  · simp only [DiskBody.isLeaf, Bool.false_eq_true, if_false, if_true, loadInnerB, loadBody, bodyBytes, takeU64_u64 (by decide : 0 < 2 ^ 64), unpackAs_some, bind_assoc,
      pure_bind]

/-- Two ways to go on from a node read. -/
theorem bind_getNode {α : Type} {r : Ref} {f g : DiskNode K V → M K V α} {w : World K V} (h : ∀ d, w.disk r = some d → f d = g d) :
    (getNode r >>= f) w = (getNode r >>= g) w := by
  show M.bind _ _ _ = M.bind _ _ _
  unfold M.bind getNode
  by_cases hf : w.env.getFails w.env.gets = true
  · simp only [hf, if_true]
  · simp only [hf, if_false, Bool.false_eq_true]
    rcases hd : w.disk r with _ | d
    · rfl
    · simp only [h d hd]

/-- loadNode on the bytes of a node and what may follow them. -/
theorem loadBytes_eq (hC : C.Inverse) (cmp : Compare K) (τ : TreeId) (node : Id) {d : DiskNode K V} (hd : Fits d) (q : Bytes) :
    loadBytes C cmp τ node (encode C d ++ q) = (do
      modN node fun n => { n with kv := some .nil }
      unpack
      modN node fun n => { n with items := d.items, root := d.root, leaf := d.body.isLeaf }
      loadMax τ d
      loadBody cmp τ node d.body
      (if q.length ≠ 0 then M.throw (.logic 2864) else pure ())
      modN node fun n => { n with loaded := true }
      markNodeClean τ node) := by
  have h1 := loadMaxB_eq hd τ (bodyBytes C d.body ++ q)
  have h2 := loadBodyB_eq hC hd cmp τ node q
  simp only [loadBytes, encode, List.append_assoc, takeHead_headB hd.items, unpackAs_some, bind_assoc, pure_bind, h1, h2]

/-- loadNode on bytes does what loadNode does. -/
theorem loadNodeB_eq (hC : C.Inverse) (cmp : Compare K) (τ : TreeId) (node : Id) (w : World K V)
    (h : ∀ d, w.disk (w.node node).ref = some d → Fits d) : loadNodeB C cmp τ node w = loadNode cmp τ node w := by
  have e1 : loadNodeB C cmp τ node w = (getNode (w.node node).ref >>= fun d => loadBytes C cmp τ node (encode C d)) w := by
    unfold loadNodeB getBytes
    simp only [bind_assoc, pure_bind]
    rfl
  have e2 : loadNode cmp τ node w = (getNode (w.node node).ref >>= fun d => (do
      modN node fun n => { n with kv := some .nil }
      unpack
      modN node fun n => { n with items := d.items, root := d.root, leaf := d.body.isLeaf }
      loadMax τ d
      loadBody cmp τ node d.body
      modN node fun n => { n with loaded := true }
      markNodeClean τ node)) w := rfl
  rw [e1, e2]
  refine bind_getNode fun d hd => ?_
  have := loadBytes_eq hC cmp τ node (h d hd) []
  simp only [List.append_nil, List.length_nil, ne_eq, not_true, if_false, pure_bind] at this
  exact this

/-! #### postNode -/

theorem M.bind_run {α β : Type} {m : M K V α} {f : α → M K V β} {w : World K V} : (m >>= f) w = M.bind m f w := rfl

theorem postLeafLoop_length (node : Id) : ∀ (k i : Nat) (w w' : World K V) (l : List (K × V)), postLeafLoop node i k w = (.ok l, w') → l.length = k
  | 0, i, w, w', l, h => by
      simp only [postLeafLoop, pure, M.pure] at h
      cases h; rfl
  | k + 1, i, w, w', l, h => by
      simp only [postLeafLoop, M.bind_run, M.bind] at h
      split at h <;> try cases h
      rename_i x w1 h1
      split at h <;> try cases h
      rename_i y w2 h2
      obtain ⟨key, v⟩ := y
      cases v with
      | node c => cases h
      | item v =>
        simp only [M.bind_run, M.bind] at h
        split at h <;> try cases h
        split at h <;> try cases h
        split at h <;> try cases h
        rename_i l' w3 h3
        simp [postLeafLoop_length node k _ _ _ _ h3]

theorem postInnerLoop_length (node : Id) : ∀ (k i : Nat) (w w' : World K V) (l : List (K × (Ref × Nat))), postInnerLoop node i k w = (.ok l, w') → l.length = k
  | 0, i, w, w', l, h => by
      simp only [postInnerLoop, pure, M.pure] at h
      cases h; rfl
  | k + 1, i, w, w', l, h => by
      simp only [postInnerLoop, M.bind_run, M.bind] at h
      split at h <;> try cases h
      rename_i x w1 h1
      split at h <;> try cases h
      rename_i y w2 h2
      obtain ⟨key, v⟩ := y
      split at h <;> try cases h
      split at h <;> try cases h
      rename_i c w3 h3
      split at h <;> try cases h
      rename_i c' w4 h4
      split at h <;> try cases h
      rename_i l' w5 h5
      simp [postInnerLoop_length node k _ _ _ _ h5]

theorem postLeafLoopB_eq (node : Id) : ∀ (k i : Nat) (p : Bytes),
    postLeafLoopB C node i k p = (do let l ← postLeafLoop node i k; return p ++ itemBytes C l)
  | 0, i, p => by simp [postLeafLoopB, postLeafLoop, itemBytes]
  | k + 1, i, p => by
      simp only [postLeafLoopB, postLeafLoop, bind_assoc]
      refine bind_congr fun x => bind_congr fun y => ?_
      obtain ⟨key, v⟩ := y
      cases v with
      | node c => rfl
      | item v => simp [postLeafLoopB_eq node k, itemBytes]

theorem postInnerLoopB_eq (node : Id) : ∀ (k i : Nat) (p : Bytes),
    postInnerLoopB C node i k p = (do let l ← postInnerLoop node i k; return p ++ kidBytes C l)
  | 0, i, p => by simp [postInnerLoopB, postInnerLoop, kidBytes]
  | k + 1, i, p => by
      simp only [postInnerLoopB, postInnerLoop, bind_assoc]
      refine bind_congr fun x => bind_congr fun y => ?_
      obtain ⟨key, v⟩ := y
      simp [postInnerLoopB_eq node k, kidBytes]

theorem postBodyB_run (node : Id) (p : Bytes) (w : World K V) :
    postBodyB C node p w = (do let b ← postBody node; return p ++ bodyBytes C b) w ∧
    ∀ b w', postBody node w = (.ok b, w') → b.isLeaf = (w.node node).leaf := by
  have e1 : postBodyB C node p w = (kvLen node >>= fun num =>
      if (w.node node).leaf then do
        pack
        postLeafLoopB C node 0 num.toNat (p ++ u64 num.toNat)
      else match (w.node node).left with
        | none => do
            M.check 2958 (num = 0)
            pack
            return p ++ u64 0
        | some l => do
            pack
            let c0 ← postRef 2978 l
            postInnerLoopB C node 0 num.toNat (p ++ u64 (1 + num.toNat) ++ refB c0)) w := rfl
  have e2 : (postBody node : M K V _) w = (kvLen node >>= fun num =>
      if (w.node node).leaf then do
        pack
        return .leaf (← postLeafLoop node 0 num.toNat)
      else match (w.node node).left with
        | none => do
            M.check 2958 (num = 0)
            pack
            return .none
        | some l => do
            pack
            let c0 ← postRef 2978 l
            return .inner c0 (← postInnerLoop node 0 num.toNat)) w := rfl
  rw [M.bind_run (m := postBody node)]
  unfold M.bind
  rw [e1, e2, M.bind_run, M.bind_run]
  unfold M.bind
  rcases kvLen node w with ⟨num | _ | _, w1⟩
  · simp only
    cases (w.node node).leaf with
    | true =>
      simp only [if_true, postLeafLoopB_eq, M.bind_run]
      unfold M.bind
      rcases pack w1 with ⟨_ | _ | _, wp⟩
      rotate_left
      · exact ⟨rfl, by rintro b w' ⟨⟩⟩
      · exact ⟨rfl, by rintro b w' ⟨⟩⟩
      simp only [M.bind_run]
      unfold M.bind
      rcases hl : postLeafLoop node 0 num.toNat wp with ⟨l | _ | _, w2⟩
      · have := postLeafLoop_length _ _ _ _ _ _ hl
        refine ⟨?_, ?_⟩
        · simp [pure, M.pure, bodyBytes, this]
        · rintro b w' ⟨⟩; rfl
      · exact ⟨rfl, by rintro b w' ⟨⟩⟩
      · exact ⟨rfl, by rintro b w' ⟨⟩⟩
    | false =>
      simp only [Bool.false_eq_true, if_false]
      rcases (w.node node).left with _ | l
      · simp only [M.check]
        split
        · simp only [M.bind_run, M.bind, pure, M.pure]
          rcases pack w1 with ⟨_ | _ | _, wp⟩
          · exact ⟨rfl, by rintro b w' ⟨⟩; rfl⟩
          · exact ⟨rfl, by rintro b w' ⟨⟩⟩
          · exact ⟨rfl, by rintro b w' ⟨⟩⟩
        · exact ⟨rfl, by rintro b w' ⟨⟩⟩
      · simp only [postInnerLoopB_eq, M.bind_run]
        unfold M.bind
        rcases pack w1 with ⟨_ | _ | _, wp⟩
        rotate_left
        · exact ⟨rfl, by rintro b w' ⟨⟩⟩
        · exact ⟨rfl, by rintro b w' ⟨⟩⟩
        simp only [M.bind_run]
        unfold M.bind
        rcases postRef 2978 l wp with ⟨c0 | _ | _, w2⟩
        · simp only [M.bind_run]
          unfold M.bind
          rcases hl : postInnerLoop node 0 num.toNat w2 with ⟨cs | _ | _, w3⟩
          · have := postInnerLoop_length _ _ _ _ _ _ hl
            refine ⟨?_, ?_⟩
            · simp [pure, M.pure, bodyBytes, this]
            · rintro b w' ⟨⟩; rfl
          · exact ⟨rfl, by rintro b w' ⟨⟩⟩
          · exact ⟨rfl, by rintro b w' ⟨⟩⟩
        · exact ⟨rfl, by rintro b w' ⟨⟩⟩
        · exact ⟨rfl, by rintro b w' ⟨⟩⟩
  · exact ⟨rfl, by rintro b w' ⟨⟩⟩
  · exact ⟨rfl, by rintro b w' ⟨⟩⟩

/-- What postNode is about to write. -/
def toPost (τ : TreeId) (node : Id) (w : World K V) (body : DiskBody K V) : DiskNode K V :=
  { items := (w.node node).items, root := (w.node node).root, max := if (w.node node).root then (w.trees τ).max else 0, body := body }

theorem pack_node (w : World K V) : (pack w).2.node = w.node := by
  unfold pack
  dsimp only
  split <;> rfl

/-- postNode on bytes does what postNode does. -/
theorem postNodeB_eq (hC : C.Inverse) (τ : TreeId) (node : Id) (w : World K V)
    (h : ∀ w1 b w', w1.node = w.node → postBody node w1 = (.ok b, w') → Fits (toPost τ node w b)) :
    postNodeB C τ node w = postNode (payloadSize C) τ node w := by
  have e1 : postNodeB C τ node w = (if !(w.node node).dirty then pure () else do
      (if (w.node node).root then pack else pure ())
      postBodyB C node (if (w.node node).root then u64 (w.trees τ).max else []) >>= fun p => do
        pack
        let r ← putBytes C (headB (w.node node).items (w.node node).root (w.node node).leaf ++ p)
        modN node fun n => { n with ref := r }
        markNodeClean τ node) w := by
    unfold postNodeB
    rw [M.bind_run, M.bind, getN]
    simp only
    split <;> rfl
  have e2 : postNode (payloadSize C) τ node w = (if !(w.node node).dirty then pure () else do
      (if (w.node node).root then pack else pure ())
      postBody node >>= fun b => do
        pack
        let r ← putNode (toPost τ node w b) (payloadSize C (toPost τ node w b) + 10)
        modN node fun n => { n with ref := r }
        markNodeClean τ node) w := by
    unfold postNode
    rw [M.bind_run, M.bind, getN]
    simp only
    split <;> rfl
  rw [e1, e2]
  split
  · rfl
  · rw [M.bind_run, M.bind_run]
    unfold M.bind
    have hn : ((if (w.node node).root then pack else pure ()) w).2.node = w.node := by
      split
      · exact pack_node w
      · rfl
    rcases hp : (if (w.node node).root then pack else pure ()) w with ⟨_ | _ | _, wp⟩
    rotate_left
    · rfl
    · rfl
    rw [hp] at hn
    simp only
    obtain ⟨h1, h2⟩ := postBodyB_run (C := C) node (if (w.node node).root then u64 (w.trees τ).max else []) wp
    rw [M.bind_run, M.bind_run]
    unfold M.bind
    rw [h1, M.bind_run]
    unfold M.bind
    rcases hb : postBody node wp with ⟨b | _ | _, w1⟩
    · simp only [pure, M.pure]
      have hleaf := h2 b w1 hb
      rw [show wp.node = w.node from hn] at hleaf
      have hf := h wp b w1 hn hb
      have he : headB (w.node node).items (w.node node).root (w.node node).leaf ++
          ((if (w.node node).root = true then u64 (w.trees τ).max else []) ++ bodyBytes C b) = encode C (toPost τ node w b) := by
        unfold encode toPost
        simp only [hleaf]
        cases (w.node node).root <;> rfl
      have hd := decode_encode_append hC hf []
      simp only [List.append_nil, List.length_nil, ne_eq, not_true, if_false] at hd
      rw [he]
      unfold putBytes
      rw [hd, encode_length]
    · rfl
    · rfl

end

end SM.BT

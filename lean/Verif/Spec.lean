import Verif.Basic

/-!
The specification: a sorted map is a list of key:value pairs in increasing key order.
Nothing here refers to trees. `cmp` is only used through `ltb` / `eqb`.
-/

namespace SM.Spec

variable {K V : Type}

/-- The operations of the `SortedMap` interface (common_api.go:173-186) other than `Dump`. -/
inductive Op (K V : Type) where
  | put (k : K) (v : V)
  | getByKey (k : K)
  | getByIndex (i : Int)
  | patchByKey (k : K) (v : V)
  | patchByIndex (i : Int) (v : V)
  | deleteByKey (k : K)
  | deleteByIndex (i : Int)
  | bisectLeft (k : K)
  | bisectRight (k : K)
  | len
  | validate

/-- What a call hands back besides `err`. -/
inductive Ans (K V : Type) where
  /-- `ok` of Put, Patch*, Delete* -/
  | done (ok : Bool)
  /-- `value, ok` of GetByKey -/
  | value (v : Option V)
  /-- `key, value, ok` of GetByIndex -/
  | item (kv : Option (K × V))
  /-- `index, found` of BisectLeft / BisectRight -/
  | index (i : Int) (found : Bool)
  /-- `numberOfItems` of Len -/
  | count (n : Int)
  /-- Validate -/
  | unit
  deriving DecidableEq, Repr

/-- The key argument of a keyed operation. -/
def Op.key? : Op K V → Option K
  | .put k _ | .getByKey k | .patchByKey k _ | .deleteByKey k
  | .bisectLeft k | .bisectRight k => some k
  | _ => none

/-- The key argument, for `Put` only. -/
def Op.putKey? : Op K V → Option K
  | .put k _ => some k
  | _ => none

variable (cmp : Compare K)

/-- Is the list strictly increasing? -/
def Sorted (l : List (K × V)) : Prop := l.Pairwise fun a b => ltb cmp a.1 b.1 = true

/-- The pairs strictly below `k`, resp. the rest. -/
def below (k : K) (l : List (K × V)) : List (K × V) := l.filter fun p => ltb cmp p.1 k
/-- The pairs strictly above `k`. -/
def above (k : K) (l : List (K × V)) : List (K × V) := l.filter fun p => ltb cmp k p.1

/-- Look a key up. -/
def find (k : K) (l : List (K × V)) : Option (K × V) := l.find? fun p => eqb cmp k p.1

/-- Is the key present? -/
def has (k : K) (l : List (K × V)) : Bool := (find cmp k l).isSome

/-- The pair at an index; `none` outside `0 .. length-1`. -/
def at? (i : Int) (l : List (K × V)) : Option (K × V) := if i < 0 then none else l[i.toNat]?

/-- Replace the value under a key. -/
def setKey (k : K) (v : V) (l : List (K × V)) : List (K × V) :=
  l.map fun p => if eqb cmp k p.1 then (p.1, v) else p

/-- Replace the value at an index. -/
def setIndex (i : Int) (v : V) (l : List (K × V)) : List (K × V) :=
  l.modify i.toNat fun p => (p.1, v)

/-- One operation on the sorted list: answer and new list (compare errors apart). -/
def step (l : List (K × V)) : Op K V → Ans K V × List (K × V)
  | .put k v =>
      if has cmp k l then (.done false, l)
      else (.done true, below cmp k l ++ (k, v) :: above cmp k l)
  | .getByKey k => (.value ((find cmp k l).map Prod.snd), l)
  | .getByIndex i => (.item (at? i l), l)
  | .patchByKey k v => if has cmp k l then (.done true, setKey cmp k v l) else (.done false, l)
  | .patchByIndex i v =>
      if (at? i l).isSome then (.done true, setIndex i v l) else (.done false, l)
  | .deleteByKey k =>
      if has cmp k l then (.done true, l.filter fun p => !eqb cmp k p.1) else (.done false, l)
  | .deleteByIndex i =>
      if (at? i l).isSome then (.done true, l.eraseIdx i.toNat) else (.done false, l)
  | .bisectLeft k =>
      if has cmp k l then (.index (below cmp k l).length true, l)
      else (.index ((below cmp k l).length - 1) false, l)
  | .bisectRight k =>
      if has cmp k l then (.index (below cmp k l).length true, l)
      else (.index (below cmp k l).length false, l)
  | .len => (.count l.length, l)
  | .validate => (.unit, l)

/-- Does the compare function reject `k` against some stored key? -/
def rejects (k : K) (l : List (K × V)) : Bool :=
  l.any fun p => match cmp k p.1 with | .error _ => true | .ok _ => false

/-- One operation, compare errors included: `none` is "an error is returned", in which case
the contents must not change. -/
def stepE (l : List (K × V)) (op : Op K V) : Option (Ans K V) × List (K × V) :=
  match op.key? with
  | some k =>
      if rejects cmp k l then (none, l)
      else (some (step cmp l op).1, (step cmp l op).2)
  | none => (some (step cmp l op).1, (step cmp l op).2)

/-- The answers to a sequence of operations, and the final contents. -/
def run (l : List (K × V)) : List (Op K V) → List (Option (Ans K V)) × List (K × V)
  | [] => ([], l)
  | op :: ops =>
      let r := stepE cmp l op
      let rs := run r.2 ops
      (r.1 :: rs.1, rs.2)

/-- A call on an in-memory map: a `SortedMap` operation or `Reset` (llrb_tree_api.go). -/
inductive Call (K V : Type) where
  | op (o : Op K V)
  | reset

/-- The key argument of a call, for `Put` only. -/
def Call.putKey? : Call K V → Option K
  | .op o => o.putKey?
  | .reset => none

/-- One call. `Reset` empties the map. -/
def stepC (l : List (K × V)) : Call K V → Option (Ans K V) × List (K × V)
  | .op o => stepE cmp l o
  | .reset => (some .unit, [])

/-- A sequence of calls. -/
def runC (l : List (K × V)) : List (Call K V) → List (Option (Ans K V)) × List (K × V)
  | [] => ([], l)
  | c :: cs =>
      let r := stepC cmp l c
      let rs := runC r.2 cs
      (r.1 :: rs.1, rs.2)

/-- What an implementation handed back - an answer and possibly an error - against what the
specification asks for: the very answer and no error, or some error. -/
def Agrees : Ans K V × Option Err → Option (Ans K V) → Prop
  | (a, none), some b => a = b
  | (_, some _), none => True
  | _, _ => False

/-- `e` is what the compare function answered when given the key of the operation. -/
def Refused (op : Op K V) (e : Err) : Prop := ∃ k, op.key? = some k ∧ ∃ k', cmp k k' = .error e

/-- The same, and the error is the compare function's. -/
def AgreesE (op : Op K V) : Ans K V × Option Err → Option (Ans K V) → Prop
  | (a, none), some b => a = b
  | (_, some e), none => Refused cmp op e
  | _, _ => False

/-- The same as `Agrees`, answer by answer (and equally many of them). -/
def AgreeAll : List (Ans K V × Option Err) → List (Option (Ans K V)) → Prop
  | [], [] => True
  | r :: rs, a :: as => Agrees r a ∧ AgreeAll rs as
  | _, _ => False

end SM.Spec

import Verif.Spec
import Verif.BTree.Dump
import Mathlib.Data.Multiset.AddSub
import Mathlib.Data.Multiset.Filter
import Mathlib.Algebra.BigOperators.Group.Multiset.Basic

/-!
Specification of the B+Tree API as a whole: several maps sharing a cache and the client's storage, their snapshots, restarts, and
callbacks that fail.

A map is a sorted list of items. Besides, the specification keeps track of the locations the client's storage is taken up by: those
the current contents of a map lie at (`live`), those it no longer needs but has not discarded yet (`old`), and those that belong to no
open map (`lost`: what a restart leaves behind). A snapshot is what a location returned by Flush stands for: the items at the time, and
the locations it is made of. `Step` says what a call may answer and what the state is afterwards. Nothing here refers to nodes, to
trees or to the model of the code; only the types of locations, reports and results are taken from there.
-/

namespace SM.Api

open Spec (Op Ans AgreesE Refused stepE has)
open BT (Ref TreeId Layout Dimensions Out Line DumpCb shown)

variable {K V : Type}

/-- What the caller chooses for a map: its compare function, which keys are fit for it, and the maximum number of keys per node. -/
structure Cfg (K : Type) where
  cmp : Compare K
  Valid : K → Prop
  max : Nat

/-- A map that is open. -/
structure Map (K V : Type) where
  items : List (K × V)
  /-- the locations the current contents lie at -/
  live : Multiset Ref
  /-- the locations of the map's earlier contents -/
  old : Multiset Ref
  /-- where the current contents are stored, if they are -/
  saved : Option Ref
  /-- how many calls of Prune have failed -/
  fails : Nat

/-- A snapshot: of which map, its items, and the locations it is made of. -/
structure Snap (K V : Type) where
  map : TreeId
  items : List (K × V)
  locs : Multiset Ref

/-- The state. -/
structure St (K V : Type) where
  maps : TreeId → Option (Map K V)
  snaps : Ref → Option (Snap K V)
  lost : Ref → Prop
  /-- no failure has occurred that calls for a restart -/
  sound : Bool
  /-- every location in use is accounted for -/
  exact : Bool

/-- Which callbacks may fail. -/
structure Faults where
  getNode : Prop
  codec : Prop
  packing : Prop
  discardNode : Prop

/-- The errors of reading. -/
def Faults.reading (F : Faults) (e : Err) : Prop := (e = .getNode ∧ F.getNode) ∨ (e = .codec ∧ F.codec)

/-- The calls. `evict` is what the cache does in the background to a node; `restart` is the end of the process and the start of
another one. -/
inductive Call (K V : Type) where
  | op (t : TreeId) (o : Op K V)
  | flush (t : TreeId) (andPurge : Bool)
  | purge (t : TreeId) (full : Bool)
  | touch (t : TreeId)
  | touchItem (t : TreeId) (i : Nat)
  | prune (t : TreeId)
  | discard (t : TreeId)
  | layout (t : TreeId)
  | dimensions (t : TreeId)
  | location (t : TreeId)
  | dump (t : TreeId) (cb : DumpCb K V)
  | new (t : TreeId)
  | old (t : TreeId) (r : Ref)
  | evict (node : Nat × Nat)
  | limits (low high : Nat)
  | restart

/-- What a call returns if not an error. -/
inductive Reply (K V : Type) where
  | ans (a : Ans K V × Option Err)
  | unit
  | loc (r : Ref)
  | index (n : Nat)
  | layout (l : Layout)
  | dimensions (d : Dimensions)
  | dumped (printed : List (Line K V) × Option Err)

/-- What can be seen of a call: its result, how often it called PutNode and DiscardNode, what DiscardNode was called on with success,
where something is stored afterwards, and to which locations one gets from a location by following references. -/
structure Obs (K V : Type) where
  out : Out (Reply K V)
  puts : Nat
  discards : Nat
  gone : List Ref
  stored : Ref → Prop
  leads : Ref → Ref → Prop

/-- No PutNode, no DiscardNode. -/
def Obs.quiet (o : Obs K V) : Prop := o.puts = 0 ∧ o.discards = 0 ∧ o.gone = []

def St.set (s : St K V) (t : TreeId) (m : Option (Map K V)) : St K V := { s with maps := fun t' => if t' = t then m else s.maps t' }

/-- Every location accounted for. -/
def St.holds (s : St K V) (r : Ref) : Prop := s.lost r ∨ ∃ t m, s.maps t = some m ∧ (r ∈ m.live ∨ r ∈ m.old)

/-- No location is accounted for twice. -/
def St.Apart (s : St K V) : Prop := ∀ t m, s.maps t = some m → (m.live + m.old).Nodup ∧
  ∀ x ∈ m.live + m.old, ¬s.lost x ∧ ∀ t' m', s.maps t' = some m' → t' ≠ t → x ∉ m'.live + m'.old

/-- No location of a snapshot of one map belongs to another. -/
structure St.Owned (s : St K V) : Prop where
  mine : ∀ r sn x t m, s.snaps r = some sn → x ∈ sn.locs → s.maps t = some m → (x ∈ m.live ∨ x ∈ m.old) → sn.map = t
  same : ∀ r₁ sn₁ r₂ sn₂ x, s.snaps r₁ = some sn₁ → s.snaps r₂ = some sn₂ → x ∈ sn₁.locs → x ∈ sn₂.locs → sn₁.map = sn₂.map

/-- The locations of snapshots are accounted for. -/
def St.Kept (s : St K V) : Prop := ∀ r sn, s.snaps r = some sn → r ∈ sn.locs ∧ sn.locs.Nodup ∧ ∀ x ∈ sn.locs, s.holds x

open Classical in
/-- Snapshots made of any of these locations are gone. -/
noncomputable def St.forget (s : St K V) (D : Multiset Ref) : St K V :=
  { s with snaps := fun r => match s.snaps r with
      | some sn => if Disjoint sn.locs D then some sn else none
      | none => none }

/-- A snapshot is taken. -/
def St.snap (s : St K V) (r : Ref) (sn : Snap K V) : St K V := { s with snaps := fun r' => if r' = r then some sn else s.snaps r' }

/-- An operation that does not change the map, by its kind or because of the key. -/
def readOnly (cmp : Compare K) (l : List (K × V)) (o : Op K V) : Prop :=
  match o with
  | .put k _ => has cmp k l = true
  | .patchByKey _ _ | .patchByIndex _ _ => False
  | .deleteByKey _ | .deleteByIndex _ => (stepE cmp l o).1 ≠ some (.done true)
  | _ => True

def isDelete : Op K V → Prop
  | .deleteByKey _ | .deleteByIndex _ => True
  | _ => False

def isDeleteByIndex : Op K V → Prop
  | .deleteByIndex _ => True
  | _ => False

/-- The bytes in use at each object, for a collection of locations. -/
def layoutOf (S : Multiset Ref) : Layout := fun n =>
  if n = 0 ∨ (S.filter fun r => r.num = n) = 0 then none else some ((S.filter fun r => r.num = n).map Ref.len).sum

/-- `m'` is `m` with other contents: nothing is stored or discarded, though locations have become old, among them that of the
previous contents. -/
structure Changed (m m' : Map K V) (items : List (K × V)) : Prop where
  items : m'.items = items
  locs : m'.live + m'.old = m.live + m.old
  saved : m'.saved = none
  root : ∀ r, m.saved = some r → r ∈ m'.old
  fails : m'.fails = m.fails

/-- The result is the one wanted: this answer, or the compare function's error. -/
def Wanted (cmp : Compare K) (op : Op K V) (out : Out (Reply K V)) (w : Option (Ans K V)) : Prop :=
  (∃ a, out = .ok (.ans a) ∧ AgreesE cmp op a w) ∨ ∃ e, out = .err e ∧ w = none ∧ Refused cmp op e

/-- The operations of a sorted map. -/
def opStep (C : Cfg K) (F : Faults) (s : St K V) (t : TreeId) (m : Map K V) (op : Op K V) (o : Obs K V) (s' : St K V) : Prop :=
  o.quiet ∧
  -- it does what is wanted,
  ((Wanted C.cmp op o.out (stepE C.cmp m.items op).1 ∧
     (((stepE C.cmp m.items op).2 = m.items ∧ s' = s) ∨
      (¬readOnly C.cmp m.items op ∧ ∃ m', Changed m m' (stepE C.cmp m.items op).2 ∧ s' = s.set t (some m')))) ∨
  -- or reading fails and nothing changes,
   (∃ e, o.out = .err e ∧ F.reading e ∧ ¬isDeleteByIndex op ∧ s' = s) ∨
  -- or reading fails within a deletion, after which the maps cannot be relied on until restart.
   ∃ e, F.reading e ∧ ((o.out = .err e ∧ isDeleteByIndex op) ∨ (o.out = .ok (.ans (.done true, some e)) ∧ isDelete op ∧ (stepE C.cmp m.items op).1 = some (.done true))) ∧
     s' = { s with sound := false })

/-- The calls on an open map. -/
def mapStep (C : Cfg K) (F : Faults) (s : St K V) (t : TreeId) (m : Map K V) (o : Obs K V) (s' : St K V) : Call K V → Prop
  | .op _ op => opStep C F s t m op o s'
  | .flush _ _ => o.discards = 0 ∧ o.gone = [] ∧ ∃ new : Multiset Ref,
      -- everything is stored,
      ((∃ r, o.out = .ok (.loc r) ∧ o.puts = Multiset.card new ∧ (∀ r0, m.saved = some r0 → r = r0 ∧ new = 0) ∧
         (∀ sn, s.snaps r = some sn → sn = ⟨t, m.items, m.live + new⟩) ∧ ((∀ x ∈ new, ¬s.holds x) ∧ ∀ x, x ∈ m.live + new ↔ o.leads r x) ∧
         s' = (s.set t (some { m with live := m.live + new, saved := some r })).snap r ⟨t, m.items, m.live + new⟩) ∨
      -- or PutNode fails, the last time it is called, or a node cannot be packed.
       (((o.out = .err .putNode ∧ o.puts = Multiset.card new + 1) ∨ (o.out = .err .codec ∧ F.packing ∧ o.puts = Multiset.card new)) ∧ m.saved = none ∧ (∀ x ∈ new, ¬s.holds x) ∧
         s' = s.set t (some { m with live := m.live + new })))
  | .purge _ full => o.quiet ∧ s' = s ∧
      ((¬(full = true ∧ m.saved = none) ∧ o.out = .ok .unit) ∨ ((full = true ∧ m.saved = none) ∧ ∃ n, o.out = .err (.logic n)))
  | .touch _ => o.quiet ∧
      ((o.out = .ok .unit ∧ s' = s.set t (some { m with live := 0, old := m.old + m.live, saved := none })) ∨
       ∃ e, o.out = .err e ∧ F.reading e ∧ (s' = s ∨ ∃ m', Changed m m' m.items ∧ s' = s.set t (some m')))
  | .touchItem _ i => o.quiet ∧
      ((m.items.length ≤ i ∧ o.out = .ok (.index 0) ∧ s' = s) ∨
       (∃ n, i < n ∧ n ≤ m.items.length ∧ o.out = .ok (.index n) ∧ ∃ m', Changed m m' m.items ∧ m'.live ≤ m.live ∧ s' = s.set t (some m')) ∨
       ∃ e, o.out = .err e ∧ F.reading e ∧ s' = s)
  | .prune _ => o.puts = 0 ∧
      ((o.out = .ok .unit ∧ o.discards = Multiset.card m.old ∧ (o.gone : Multiset Ref) = m.old ∧
         s' = (s.set t (some { m with old := 0 })).forget m.old) ∨
       (o.out = .err .discardNode ∧ F.discardNode ∧ o.discards = o.gone.length + 1 ∧ ∃ left, (o.gone : Multiset Ref) + left = m.old ∧ left ≠ 0 ∧
         s' = (s.set t (some { m with old := left, fails := 1 })).forget o.gone))
  | .discard _ => o.puts = 0 ∧ o.out = .ok .unit ∧ (o.gone : Multiset Ref) = m.live + m.old ∧ o.discards = o.gone.length ∧
      s' = (s.set t none).forget (m.live + m.old)
  | .layout _ => o.quiet ∧ s' = s ∧ (o.out = .ok (.layout (layoutOf m.live)) ∨ ∃ e, o.out = .err e ∧ F.reading e)
  | .dimensions _ => o.quiet ∧ s' = s ∧
      ((∃ h, o.out = .ok (.dimensions ⟨C.max / 2, C.max, m.items.length, h⟩) ∧ 1 ≤ h ∧ m.items.length ≤ C.max * (C.max + 1) ^ (h - 1) ∧
         (2 ≤ h → 2 * (C.max / 2) * (C.max / 2 + 1) ^ (h - 2) ≤ m.items.length)) ∨
       ∃ e, o.out = .err e ∧ F.reading e)
  | .location _ => o.quiet ∧ o.out = .ok (.loc (m.saved.getD .zero)) ∧ s' = s
  | .dump _ cb => o.quiet ∧ s' = s ∧ ∃ d, o.out = .ok (.dumped d) ∧
      -- some of the items are printed; all of them if nothing can fail
      (shown d.1).Sublist m.items ∧
      ((∀ e, ¬F.reading e) → (∀ k, cb.keyFails k = false) → (∀ v, cb.valueFails v = false) → d.2 = none ∧ shown d.1 = m.items) ∧
      ∀ e, d.2 = some e → F.reading e ∨ (e = .codec ∧ ((∃ k, cb.keyFails k = true) ∨ ∃ v, cb.valueFails v = true))
  | _ => False

/-- What a call may do: its result, what it does to the storage, the state afterwards. -/
def Step (cfg : TreeId → Cfg K) (F : Faults) (s : St K V) (c : Call K V) (o : Obs K V) (s' : St K V) : Prop :=
  -- the storage holds what is accounted for, and nothing is accounted for twice or for another map
  ((∀ r, s'.holds r → o.stored r) ∧ (s'.exact = true → ∀ r, o.stored r → s'.holds r) ∧ s'.Apart ∧ s'.Owned ∧ s'.Kept) ∧
  match c with
  | .restart => o.quiet ∧ o.out = .ok .unit ∧ s' = { s with maps := fun _ => none, lost := s.holds, sound := true }
  | c =>
    if s.sound = true then
      match c with
      | .op t _ | .flush t _ | .purge t _ | .touch t | .touchItem t _ | .prune t | .discard t | .layout t | .dimensions t | .location t | .dump t _ =>
          ∃ m, s.maps t = some m ∧ mapStep (cfg t) F s t m o s' c
      | .new t => o.quiet ∧ o.out = .ok .unit ∧ s' = s.set t (some ⟨[], 0, 0, none, 0⟩)
      | .old t r => o.quiet ∧ ∃ sn, s.snaps r = some sn ∧
          ((o.out = .ok .unit ∧ s' = { s.set t (some ⟨sn.items, sn.locs, 0, some r, 0⟩) with lost := fun x => s.lost x ∧ x ∉ sn.locs }) ∨
           ∃ e, o.out = .err e ∧ F.reading e ∧ s' = s)
      | .evict _ | .limits _ _ => o.quiet ∧ o.out = .ok .unit ∧ s' = s
      | .restart => False
    else o.discards = 0 ∧ o.gone = [] ∧ s' = { s with exact := false }

/-- When a call may be made. -/
def Pre (cfg : TreeId → Cfg K) (F : Faults) (s : St K V) : Call K V → Prop
  | .restart => True
  | c =>
    if s.sound = true then
      match c with
      | .op t (.put k _) => ∃ m, s.maps t = some m ∧ ((cfg t).Valid k ∨ m.items ≠ [])
      | .discard t => (∃ m, s.maps t = some m ∧ m.fails = 0) ∧ ¬F.getNode ∧ ¬F.codec ∧ ¬F.discardNode
      | .prune t => ∃ m, s.maps t = some m ∧ m.fails = 0
      | .op t _ | .flush t _ | .purge t _ | .touch t | .touchItem t _ | .layout t | .dimensions t | .location t | .dump t _ => ∃ m, s.maps t = some m
      | .new t => s.maps t = none
      | .old t r => s.maps t = none ∧ ∃ sn, s.snaps r = some sn ∧ sn.map = t
      | .evict _ | .limits _ _ | .restart => True
    else
      match c with
      | .prune _ | .discard _ => False
      | _ => True

/-- Calls, the callbacks that might fail meanwhile, and what was seen of the calls: as long as the calls are ones that may be made,
each does what it may do. -/
def Meets (cfg : TreeId → Cfg K) : St K V → List (Call K V × Faults × Obs K V) → Prop
  | _, [] => True
  | s, (c, F, o) :: l => Pre cfg F s c → ∃ s', Step cfg F s c o s' ∧ Meets cfg s' l

/-- Before the first call. -/
def init : St K V := ⟨fun _ => none, fun _ => none, fun _ => False, true, true⟩

end SM.Api

import Verif.BTree.PrefixSum

/-!
What a B+Tree in memory and on disk looks like as a tree: `Pt` is the bare tree, `Dt` adds the
location of every node on disk, `Gt` describes a tree of node structs, parts of which may not be
loaded. `bun` says what such a tree takes up: node structs (cells), entries in the cache lists,
and nodes stored on disk (pages).
-/

namespace SM.BT

/-- The children of a non-leaf: the first, then the others with their keys. -/
structure Row (K α : Type) where
  c0 : α
  cs : List (K × α)

/-- What is left of a position in a row: nothing, or the first child, others, and the key of the
position. -/
abbrev Hole (K α : Type) := Option (Row K α × K)

namespace Row
variable {K α β γ : Type}

/-- All children. -/
def kids (r : Row K α) : List α := r.c0 :: r.cs.map Prod.snd

/-- Map the children. -/
def map (f : α → β) (r : Row K α) : Row K β := ⟨f r.c0, r.cs.map fun p => (p.1, f p.2)⟩

/-- Put a child and what is right of it into a hole. -/
def plug : Hole K α → α → List (K × α) → Row K α
  | none, t, post => ⟨t, post⟩
  | some (r, k), t, post => ⟨r.c0, r.cs ++ (k, t) :: post⟩

/-- Map the children in a hole. -/
def mapH (f : α → β) : Hole K α → Hole K β
  | none => none
  | some (r, k) => some (r.map f, k)

/-- The children in a hole. -/
def kidsH : Hole K α → List α
  | none => []
  | some (r, _) => r.kids

@[simp] theorem kids_map (f : α → β) (r : Row K α) : (r.map f).kids = r.kids.map f := by
  simp [kids, map]
@[simp] theorem map_map (f : α → β) (g : β → γ) (r : Row K α) : (r.map f).map g = r.map (g ∘ f) := by
  simp [map]
@[simp] theorem map_c0 (f : α → β) (r : Row K α) : (r.map f).c0 = f r.c0 := rfl
@[simp] theorem map_cs (f : α → β) (r : Row K α) : (r.map f).cs = r.cs.map fun p => (p.1, f p.2) := rfl
@[simp] theorem kids_plug (a : Hole K α) (t : α) (b : List (K × α)) :
    (plug a t b).kids = kidsH a ++ t :: b.map Prod.snd := by
  rcases a with _ | ⟨r, k⟩ <;> simp [plug, kids, kidsH]
@[simp] theorem map_plug (f : α → β) (a : Hole K α) (t : α) (b : List (K × α)) :
    (plug a t b).map f = plug (mapH f a) (f t) (b.map fun p => (p.1, f p.2)) := by
  rcases a with _ | ⟨r, k⟩ <;> simp [plug, map, mapH]
@[simp] theorem kidsH_mapH (f : α → β) (a : Hole K α) : kidsH (mapH f a) = (kidsH a).map f := by
  rcases a with _ | ⟨r, k⟩ <;> simp [kidsH, mapH]
theorem map_congr {f g : α → β} {r : Row K α} (h : ∀ t ∈ r.kids, f t = g t) : r.map f = r.map g := by
  rcases r with ⟨c0, cs⟩
  simp only [kids, List.mem_cons, List.mem_map] at h
  simp only [map, Row.mk.injEq]
  exact ⟨h _ (.inl rfl), List.map_congr_left fun p hp => by rw [h _ (.inr ⟨p, hp, rfl⟩)]⟩
@[simp] theorem length_kids (r : Row K α) : r.kids.length = r.cs.length + 1 := by simp [kids]

end Row

variable {K V : Type}

/-- A bare B+Tree of a given height: leaves are at height 0. -/
def Pt (K V : Type) : Nat → Type
  | 0 => List (K × V)
  | h + 1 => Row K (Pt K V h)
/-- A leaf. -/
def Pt.leaf (l : List (K × V)) : Pt K V 0 := l
/-- A non-leaf. -/
def Pt.inner {h : Nat} (r : Row K (Pt K V h)) : Pt K V (h + 1) := r

/-- A B+Tree on disk: every node comes with its location. -/
def Dt (K V : Type) : Nat → Type
  | 0 => Ref × List (K × V)
  | h + 1 => Ref × Row K (Dt K V h)
/-- A leaf. -/
def Dt.leaf (ref : Ref) (l : List (K × V)) : Dt K V 0 := (ref, l)
/-- A non-leaf. -/
def Dt.inner {h : Nat} (ref : Ref) (r : Row K (Dt K V h)) : Dt K V (h + 1) := (ref, r)

/-- A loaded node while an operation is under way: its location and dirty flag, its entry in the cache lists, and
the pages it still has on disk, whatever they say. -/
structure Odd (K V : Type) where
  ref : Ref
  dirty : Bool
  entry : Option Bool
  pages : Multiset (Ref × DiskNode K V)

/-- A node struct: not loaded, or loaded, and then clean (`some` location) or dirty (`none`); or loaded and neither. -/
inductive Nd (O U X : Type) where
  | unl (id : Id) (d : U)
  | ld (id : Id) (st : Option Ref) (x : X)
  | od (id : Id) (o : O) (x : X)

/-- The contents of a loaded node. -/
def Xt (K V : Type) : Nat → Type
  | 0 => List (K × V)
  | h + 1 => Row K (Nd (Odd K V) (Dt K V h) (Xt K V h))

/-- A B+Tree of node structs. -/
def Gt (K V : Type) (h : Nat) : Type := Nd (Odd K V) (Dt K V h) (Xt K V h)
/-- A node on disk only. -/
def Gt.unl {h : Nat} (id : Id) (d : Dt K V h) : Gt K V h := Nd.unl id d
/-- A loaded leaf. -/
def Gt.leaf (id : Id) (st : Option Ref) (l : List (K × V)) : Gt K V 0 := Nd.ld (X := Xt K V 0) id st l
/-- A loaded non-leaf. -/
def Gt.inner {h : Nat} (id : Id) (st : Option Ref) (r : Row K (Gt K V h)) : Gt K V (h + 1) :=
  Nd.ld (X := Xt K V (h + 1)) id st r
/-- An odd leaf. -/
def Gt.odLeaf (id : Id) (o : Odd K V) (l : List (K × V)) : Gt K V 0 := Nd.od (X := Xt K V 0) id o l
/-- An odd non-leaf. -/
def Gt.odInner {h : Nat} (id : Id) (o : Odd K V) (r : Row K (Gt K V h)) : Gt K V (h + 1) :=
  Nd.od (X := Xt K V (h + 1)) id o r

theorem Pt.cases0 (t : Pt K V 0) : ∃ l, t = .leaf l := ⟨t, rfl⟩
theorem Pt.casesS {h : Nat} (t : Pt K V (h + 1)) : ∃ r, t = .inner r := ⟨t, rfl⟩
theorem Dt.cases0 (t : Dt K V 0) : ∃ ref l, t = .leaf ref l := ⟨t.1, t.2, rfl⟩
theorem Dt.casesS {h : Nat} (t : Dt K V (h + 1)) : ∃ ref r, t = .inner ref r := ⟨t.1, t.2, rfl⟩
theorem Gt.cases0 (t : Gt K V 0) :
    (∃ i d, t = .unl i d) ∨ (∃ i st l, t = .leaf i st l) ∨ ∃ i o l, t = .odLeaf i o l := by
  cases t with
  | unl i d => exact .inl ⟨i, d, rfl⟩
  | ld i st x => exact .inr (.inl ⟨i, st, x, rfl⟩)
  | od i o x => exact .inr (.inr ⟨i, o, x, rfl⟩)
theorem Gt.casesS {h : Nat} (t : Gt K V (h + 1)) :
    (∃ i d, t = .unl i d) ∨ (∃ i st r, t = .inner i st r) ∨ ∃ i o r, t = .odInner i o r := by
  cases t with
  | unl i d => exact .inl ⟨i, d, rfl⟩
  | ld i st x => exact .inr (.inl ⟨i, st, x, rfl⟩)
  | od i o x => exact .inr (.inr ⟨i, o, x, rfl⟩)

/-- The items. -/
def Pt.flat : {h : Nat} → Pt K V h → List (K × V)
  | 0, l => @id (List (K × V)) l
  | h + 1, r => (@id (Row K (Pt K V h)) r).kids.flatMap Pt.flat

/-- The number of items. -/
def Pt.cnt {h : Nat} (p : Pt K V h) : Nat := p.flat.length

/-- Items and keys of non-leaves, from left to right. -/
def Pt.seq : {h : Nat} → Pt K V h → List ((K × V) ⊕ K)
  | 0, l => (@id (List (K × V)) l).map .inl
  | h + 1, r => (@id (Row K (Pt K V h)) r).c0.seq ++ (@id (Row K (Pt K V h)) r).cs.flatMap fun p => .inr p.1 :: p.2.seq

/-- Number of entries of the root node. -/
def Pt.width : {h : Nat} → Pt K V h → Nat
  | 0, l => (@id (List (K × V)) l).length
  | h + 1, r => (@id (Row K (Pt K V h)) r).cs.length

/-- Occupancy of a node that is not the root, and of all below. -/
def Pt.Occ (min max : Nat) : {h : Nat} → Pt K V h → Prop
  | 0, l => min ≤ (@id (List (K × V)) l).length ∧ (@id (List (K × V)) l).length ≤ max
  | h + 1, r => (min ≤ (@id (Row K (Pt K V h)) r).cs.length ∧ (@id (Row K (Pt K V h)) r).cs.length ≤ max) ∧
      ∀ c ∈ (@id (Row K (Pt K V h)) r).kids, Pt.Occ min max c

/-- Occupancy of a tree: the root may be shorter. -/
def Pt.RootOcc (min max : Nat) : {h : Nat} → Pt K V h → Prop
  | 0, l => (@id (List (K × V)) l).length ≤ max
  | h + 1, r => (1 ≤ (@id (Row K (Pt K V h)) r).cs.length ∧ (@id (Row K (Pt K V h)) r).cs.length ≤ max) ∧
      ∀ c ∈ (@id (Row K (Pt K V h)) r).kids, Pt.Occ min max c

/-- Forget the locations. -/
def Dt.erase : {h : Nat} → Dt K V h → Pt K V h
  | 0, d => .leaf (@id (Ref × List (K × V)) d).2
  | h + 1, d => .inner ((@id (Ref × Row K (Dt K V h)) d).2.map Dt.erase)

/-- The number of items. -/
def Dt.cnt {h : Nat} (d : Dt K V h) : Nat := d.erase.cnt

/-- The location of the root node. -/
def Dt.ref : {h : Nat} → Dt K V h → Ref
  | 0, d => (@id (Ref × List (K × V)) d).1
  | h + 1, d => (@id (Ref × Row K (Dt K V h)) d).1

/-- Forget structs and locations. -/
def Gt.erase : {h : Nat} → Gt K V h → Pt K V h
  | _, Nd.unl _ d => d.erase
  | 0, Nd.ld _ _ l => .leaf (@id (List (K × V)) l)
  | h + 1, Nd.ld _ _ r => .inner ((@id (Row K (Gt K V h)) r).map Gt.erase)
  | 0, Nd.od _ _ l => .leaf (@id (List (K × V)) l)
  | h + 1, Nd.od _ _ r => .inner ((@id (Row K (Gt K V h)) r).map Gt.erase)

/-- The number of items. -/
def Gt.cnt {h : Nat} (t : Gt K V h) : Nat := t.erase.cnt

/-- The root node's struct. -/
def Gt.id {h : Nat} : Gt K V h → Id
  | Nd.unl i _ => i
  | Nd.ld i _ _ => i
  | Nd.od i _ _ => i

/-- The root node's location on disk, if it is not dirty. -/
def Gt.st {h : Nat} : Gt K V h → Option Ref
  | Nd.unl _ d => some (Dt.ref d)
  | Nd.ld _ st _ => st
  | Nd.od _ _ _ => none

/-- Is the root node loaded? -/
def Gt.ld {h : Nat} : Gt K V h → Bool
  | Nd.unl _ _ => false
  | Nd.ld _ _ _ => true
  | Nd.od _ _ _ => true

/-- No clean node above a dirty one. -/
def Gt.Clean : {h : Nat} → Gt K V h → Prop
  | _, Nd.unl _ _ => True
  | 0, Nd.ld _ _ _ => True
  | h + 1, Nd.ld _ st r => ∀ c ∈ (@_root_.id (Row K (Gt K V h)) r).kids, Gt.Clean c ∧ (st.isSome → (Gt.st c).isSome)
  | 0, Nd.od _ _ _ => True
  | h + 1, Nd.od _ _ r => ∀ c ∈ (@_root_.id (Row K (Gt K V h)) r).kids, Gt.Clean c

/-- The odd nodes. -/
def Gt.odds : {h : Nat} → Gt K V h → Multiset Id
  | _, Nd.unl _ _ => 0
  | 0, Nd.ld _ _ _ => 0
  | h + 1, Nd.ld _ _ r => ((@_root_.id (Row K (Gt K V h)) r).kids.map Gt.odds).sum
  | 0, Nd.od i _ _ => {i}
  | h + 1, Nd.od i _ r => {i} + ((@_root_.id (Row K (Gt K V h)) r).kids.map Gt.odds).sum

/-- What a non-leaf records of a child. -/
structure Kid where
  id : Id
  cnt : Nat
  st : Option Ref

/-- The location fields. -/
def refOf (st : Option Ref) : Ref := st.getD .zero

/-- What the parent records. -/
def Gt.kid {h : Nat} (t : Gt K V h) : Kid := ⟨t.id, t.cnt, t.st⟩

section
variable {h : Nat} (i : Id) (st : Option Ref) (l : List (K × V)) (r : Row K (Gt K V h)) (d : Dt K V h) (p : Row K (Pt K V h))
  (ref : Ref) (e : Row K (Dt K V h))
@[simp] theorem erase_dleaf : (Dt.leaf ref l).erase = .leaf l := rfl
@[simp] theorem erase_dinner : (Dt.inner ref e).erase = .inner (e.map Dt.erase) := rfl
@[simp] theorem ref_dleaf : (Dt.leaf ref l).ref = ref := rfl
@[simp] theorem ref_dinner : (Dt.inner ref e).ref = ref := rfl
@[simp] theorem erase_unl : (Gt.unl i d).erase = d.erase := by cases h <;> rfl
@[simp] theorem erase_leaf : (Gt.leaf i st l).erase = .leaf l := rfl
@[simp] theorem erase_inner : (Gt.inner i st r).erase = .inner (r.map Gt.erase) := rfl
@[simp] theorem id_unl : (Gt.unl i d).id = i := rfl
@[simp] theorem id_leaf : (Gt.leaf i st l).id = i := rfl
@[simp] theorem id_inner : (Gt.inner i st r).id = i := rfl
@[simp] theorem st_unl : (Gt.unl i d).st = some d.ref := rfl
@[simp] theorem st_leaf : (Gt.leaf i st l).st = st := rfl
@[simp] theorem st_inner : (Gt.inner i st r).st = st := rfl
@[simp] theorem ld_unl : (Gt.unl i d).ld = false := rfl
@[simp] theorem ld_leaf : (Gt.leaf i st l).ld = true := rfl
@[simp] theorem ld_inner : (Gt.inner i st r).ld = true := rfl
@[simp] theorem Clean_unl : (Gt.unl i d).Clean := by cases h <;> trivial
@[simp] theorem Clean_leaf : (Gt.leaf i st l).Clean := trivial
theorem Clean_inner : (Gt.inner i st r).Clean ↔ ∀ c ∈ r.kids, c.Clean ∧ (st.isSome → c.st.isSome) := Iff.rfl
variable (o : Odd K V)
@[simp] theorem erase_odLeaf : (Gt.odLeaf i o l).erase = .leaf l := rfl
@[simp] theorem erase_odInner : (Gt.odInner i o r).erase = .inner (r.map Gt.erase) := rfl
@[simp] theorem id_odLeaf : (Gt.odLeaf i o l).id = i := rfl
@[simp] theorem id_odInner : (Gt.odInner i o r).id = i := rfl
@[simp] theorem st_odLeaf : (Gt.odLeaf i o l).st = none := rfl
@[simp] theorem st_odInner : (Gt.odInner i o r).st = none := rfl
@[simp] theorem ld_odLeaf : (Gt.odLeaf i o l).ld = true := rfl
@[simp] theorem ld_odInner : (Gt.odInner i o r).ld = true := rfl
@[simp] theorem Clean_odLeaf : (Gt.odLeaf i o l).Clean := trivial
theorem Clean_odInner : (Gt.odInner i o r).Clean ↔ ∀ c ∈ r.kids, c.Clean := Iff.rfl
@[simp] theorem odds_unl : (Gt.unl i d).odds = 0 := by cases h <;> rfl
@[simp] theorem odds_leaf : (Gt.leaf i st l).odds = 0 := rfl
theorem odds_inner : (Gt.inner i st r).odds = (r.kids.map Gt.odds).sum := rfl
@[simp] theorem odds_odLeaf : (Gt.odLeaf i o l).odds = {i} := rfl
theorem odds_odInner : (Gt.odInner i o r).odds = {i} + (r.kids.map Gt.odds).sum := rfl
@[simp] theorem cnt_odLeaf : (Gt.odLeaf i o l).cnt = l.length := rfl
@[simp] theorem flat_leaf : (Pt.leaf l).flat = l := rfl
@[simp] theorem flat_inner : (Pt.inner p).flat = p.kids.flatMap Pt.flat := rfl
@[simp] theorem cnt_leaf : (Gt.leaf i st l).cnt = l.length := rfl
theorem cnt_inner : (Gt.inner i st r).cnt = (r.kids.map Gt.cnt).sum := by
  simp only [Gt.cnt, Pt.cnt, erase_inner, flat_inner, Row.kids_map, List.flatMap_map, List.length_flatMap]
  rfl
theorem cnt_odInner : (Gt.odInner i o r).cnt = (r.kids.map Gt.cnt).sum := by
  simp only [Gt.cnt, Pt.cnt, erase_odInner, flat_inner, Row.kids_map, List.flatMap_map, List.length_flatMap]
  rfl
@[simp] theorem seq_leaf : (Pt.leaf l).seq = l.map .inl := rfl
theorem seq_inner : (Pt.inner p).seq = p.c0.seq ++ p.cs.flatMap fun p => .inr p.1 :: p.2.seq := rfl
@[simp] theorem cnt_unl : (Gt.unl i d).cnt = d.cnt := by simp [Gt.cnt, Dt.cnt]
@[simp] theorem cnt_dleaf : (Dt.leaf ref l).cnt = l.length := rfl
theorem cnt_dinner : (Dt.inner ref e).cnt = (e.kids.map Dt.cnt).sum := by
  simp only [Dt.cnt, Pt.cnt, erase_dinner, flat_inner, Row.kids_map, List.flatMap_map, List.length_flatMap]
  rfl
@[simp] theorem width_leaf : (Pt.leaf l).width = l.length := rfl
@[simp] theorem width_inner : (Pt.inner p).width = p.cs.length := rfl
theorem occ_leaf (min max : Nat) : (Pt.leaf l).Occ min max ↔ min ≤ l.length ∧ l.length ≤ max := Iff.rfl
theorem occ_inner (min max : Nat) : (Pt.inner p).Occ min max ↔
    (min ≤ p.cs.length ∧ p.cs.length ≤ max) ∧ ∀ c ∈ p.kids, c.Occ min max := Iff.rfl
theorem rootOcc_leaf (min max : Nat) : (Pt.leaf l).RootOcc min max ↔ l.length ≤ max := Iff.rfl
theorem rootOcc_inner (min max : Nat) : (Pt.inner p).RootOcc min max ↔
    (1 ≤ p.cs.length ∧ p.cs.length ≤ max) ∧ ∀ c ∈ p.kids, c.Occ min max := Iff.rfl
end

/-! ### What it takes up -/

/-- Node structs, cache entries (`none`: not in any list), pages, prefix-sum fields of nodes that have no parent. -/
abbrev B (K V : Type) :=
  Multiset (Cell K V) × Multiset (Id × Option Bool) × Multiset (Ref × DiskNode K V) × Multiset Id

/-- A node struct. -/
def cellB (c : Cell K V) : B K V := ({c}, 0, 0, 0)
/-- A cache entry, if there is a cache. -/
def lruB (ca : Bool) (x : Id) (d : Bool) : B K V := (0, {(x, if ca then some d else none)}, 0, 0)
/-- A node that is in no cache list. -/
def offB (x : Id) : B K V := (0, {(x, none)}, 0, 0)
/-- A page. -/
def pageB (p : Ref × DiskNode K V) : B K V := (0, 0, {p}, 0)
/-- Pages. -/
def pagesB (p : Multiset (Ref × DiskNode K V)) : B K V := (0, 0, p, 0)
/-- Prefix-sum fields. -/
def slotB (X : Multiset Id) : B K V := (0, 0, 0, X)

/-- A node as stored on disk. -/
def mkDisk (P : Par K) (root : Bool) (items : Nat) (b : DiskBody K V) : DiskNode K V :=
  { items := items, root := root, max := if root then P.max else 0, body := b }

/-- Location and count of a child as stored on disk. -/
def Kid.disk (k : Kid) : Ref × Nat := (refOf k.st, k.cnt)

/-- Children as stored on disk. -/
def Row.disk (r : Row K Kid) : DiskBody K V := .inner r.c0.disk (r.cs.map fun p => (p.1, p.2.disk))

/-- Total count. -/
def Row.total (r : Row K Kid) : Nat := (r.kids.map Kid.cnt).sum

/-- What the parent's page records; it does not know a struct. -/
def Dt.kid {h : Nat} (d : Dt K V h) : Kid := ⟨0, d.cnt, some d.ref⟩

/-- Pages of a tree on disk. -/
def Dt.pages (P : Par K) : {h : Nat} → Bool → Dt K V h → Multiset (Ref × DiskNode K V)
  | 0, root, d =>
      {((@id (Ref × List (K × V)) d).1,
        mkDisk P root (@id (Ref × List (K × V)) d).2.length (.leaf (@id (Ref × List (K × V)) d).2))}
  | h + 1, root, d =>
      ((@id (Ref × Row K (Dt K V h)) d).1,
        mkDisk P root ((@id (Ref × Row K (Dt K V h)) d).2.kids.map Dt.cnt).sum
          (Row.disk ((@id (Ref × Row K (Dt K V h)) d).2.map Dt.kid))) ::ₘ
      ((@id (Ref × Row K (Dt K V h)) d).2.kids.map (Dt.pages P false)).sum

/-- Parent and root flag of a node struct. -/
structure Pos where
  parent : Option Id
  root : Bool

/-- Position of a child. -/
def Pos.child (i : Id) : Pos := ⟨some i, false⟩

/-- A node struct's cell. -/
def mkCell (P : Par K) (q : Pos) (id : Id) (st : Option Ref) (b : Body K V) : Cell K V :=
  { cm := P.toCmp, id := id, tree := P.τ, parent := q.parent, root := q.root, ref := refOf st, dirty := st.isNone,
    body := b }

/-- The page of a node, if it is not dirty. -/
def ownPage (st : Option Ref) (d : DiskNode K V) : B K V :=
  match st with
  | some r => pageB (r, d)
  | none => 0

/-- What a loaded leaf takes up. -/
def leafB (P : Par K) (q : Pos) (id : Id) (st : Option Ref) (l : List (K × V)) : B K V :=
  cellB (mkCell P q id st (.leaf l.length l)) + lruB P.ca id st.isNone + ownPage st (mkDisk P q.root l.length (.leaf l))

/-- The body of a non-leaf. -/
def Row.body (r : Row K Kid) : Body K V :=
  .inner r.total r.c0.id (r.cs.map fun p => (p.1, p.2.id)) (some (r.kids.map fun k => (k.id, k.cnt)))

/-- What a loaded non-leaf takes up, its children apart. -/
def innerB (P : Par K) (q : Pos) (id : Id) (st : Option Ref) (r : Row K Kid) : B K V :=
  cellB (mkCell P q id st r.body) + lruB P.ca id st.isNone + ownPage st (mkDisk P q.root r.total r.disk)

/-- What an odd node takes up, its children apart. -/
def oddB (P : Par K) (q : Pos) (id : Id) (o : Odd K V) (b : Body K V) : B K V :=
  cellB { mkCell P q id none b with ref := o.ref, dirty := o.dirty } + (0, {(id, o.entry)}, 0, 0) + pagesB o.pages

/-- What a tree takes up. -/
def bun (P : Par K) : {h : Nat} → Pos → Gt K V h → B K V
  | _, q, Nd.unl id d =>
      cellB (mkCell P q id (some (Dt.ref d)) (.unl (Dt.cnt d))) + offB id + pagesB (Dt.pages P q.root d)
  | 0, q, Nd.ld id st l => leafB P q id st (@_root_.id (List (K × V)) l)
  | h + 1, q, Nd.ld id st r =>
      innerB P q id st ((@_root_.id (Row K (Gt K V h)) r).map Gt.kid) +
      ((@_root_.id (Row K (Gt K V h)) r).kids.map (bun P (Pos.child id))).sum
  | 0, q, Nd.od id o l => oddB P q id o (.leaf (@_root_.id (List (K × V)) l).length (@_root_.id (List (K × V)) l))
  | h + 1, q, Nd.od id o r =>
      oddB P q id o ((@_root_.id (Row K (Gt K V h)) r).map Gt.kid).body +
      ((@_root_.id (Row K (Gt K V h)) r).kids.map (bun P (Pos.child id))).sum

section
variable {h : Nat} (P : Par K) (q : Pos)
theorem bun_unl (i : Id) (d : Dt K V h) : bun P q (.unl i d) =
    cellB (mkCell P q i (some d.ref) (.unl d.cnt)) + offB i + pagesB (d.pages P q.root) := by cases h <;> rfl
theorem bun_leaf (i : Id) (st : Option Ref) (l : List (K × V)) : bun P q (.leaf i st l) = leafB P q i st l := rfl
theorem bun_inner (i : Id) (st : Option Ref) (r : Row K (Gt K V h)) : bun P q (.inner i st r) =
    innerB P q i st (r.map Gt.kid) + (r.kids.map (bun P (Pos.child i))).sum := rfl
theorem bun_odLeaf (i : Id) (o : Odd K V) (l : List (K × V)) : bun P q (.odLeaf i o l) = oddB P q i o (.leaf l.length l) := rfl
theorem bun_odInner (i : Id) (o : Odd K V) (r : Row K (Gt K V h)) : bun P q (.odInner i o r) =
    oddB P q i o (r.map Gt.kid).body + (r.kids.map (bun P (Pos.child i))).sum := rfl
theorem pages_leaf (root : Bool) (ref : Ref) (l : List (K × V)) : (Dt.leaf ref l).pages P root =
    {(ref, mkDisk P root l.length (.leaf l))} := rfl
theorem pages_inner (root : Bool) (ref : Ref) (r : Row K (Dt K V h)) : (Dt.inner ref r).pages P root =
    (ref, mkDisk P root (r.kids.map Dt.cnt).sum (Row.disk (r.map Dt.kid))) ::ₘ
      (r.kids.map (Dt.pages P false)).sum := rfl
end

/-- What the children take up. -/
def kidsB {h : Nat} (P : Par K) (i : Id) (l : List (Gt K V h)) : B K V := (l.map (bun P (Pos.child i))).sum

@[simp] theorem kidsB_nil {h : Nat} (P : Par K) (i : Id) : kidsB P i ([] : List (Gt K V h)) = 0 := rfl
@[simp] theorem kidsB_cons {h : Nat} (P : Par K) (i : Id) (t : Gt K V h) (l) :
    kidsB P i (t :: l) = bun P (Pos.child i) t + kidsB P i l := by simp [kidsB]
@[simp] theorem kidsB_append {h : Nat} (P : Par K) (i : Id) (a b : List (Gt K V h)) :
    kidsB P i (a ++ b) = kidsB P i a + kidsB P i b := by simp [kidsB]

/-! ### Zippers -/

/-- What surrounds a subtree of height `h` in a tree of height `H`; the nodes above are loaded. -/
inductive Ctx (K V : Type) (H : Nat) : Nat → Type
  | top : Ctx K V H H
  | fr {h : Nat} (id : Id) (st : Option Ref) (pre : Hole K (Gt K V h)) (post : List (K × Gt K V h))
      (up : Ctx K V H (h + 1)) : Ctx K V H h

namespace Ctx
variable {H : Nat}

/-- Put a subtree in. -/
def plug : {h : Nat} → Ctx K V H h → Gt K V h → Gt K V H
  | _, .top, t => t
  | _, .fr id st pre post up, t => up.plug (.inner id st (Row.plug pre t post))

/-- The position of the subtree. -/
def pos : {h : Nat} → Ctx K V H h → Pos
  | _, .top => ⟨none, true⟩
  | _, .fr id _ _ _ _ => Pos.child id

/-- The row of children records, given that of the subtree. -/
def row {h : Nat} (pre : Hole K (Gt K V h)) (k : Kid) (post : List (K × Gt K V h)) : Row K Kid :=
  Row.plug (Row.mapH Gt.kid pre) k (post.map fun p => (p.1, p.2.kid))

/-- What the surroundings take up, given what is recorded of the subtree. -/
def bun (P : Par K) : {h : Nat} → Ctx K V H h → Kid → B K V
  | _, .top, _ => 0
  | _, .fr id st pre post up, k =>
      innerB P up.pos id st (row pre k post) + kidsB P id (Row.kidsH pre) + kidsB P id (post.map Prod.snd) +
      up.bun P ⟨id, (row pre k post).total, st⟩

/-- Everything above marked dirty. -/
def dirty : {h : Nat} → Ctx K V H h → Ctx K V H h
  | _, .top => .top
  | _, .fr id _ pre post up => .fr id none pre post up.dirty

/-- Items and keys to the left. -/
def lseq : {h : Nat} → Ctx K V H h → List ((K × V) ⊕ K)
  | _, .top => []
  | _, .fr _ _ none _ up => up.lseq
  | _, .fr _ _ (some (r, k)) _ up => up.lseq ++ ((Pt.inner (r.map Gt.erase)).seq ++ [.inr k])

/-- Items and keys to the right. -/
def rseq : {h : Nat} → Ctx K V H h → List ((K × V) ⊕ K)
  | _, .top => []
  | _, .fr _ _ _ post up => (post.flatMap fun p => .inr p.1 :: p.2.erase.seq) ++ up.rseq

/-- Items to the left. -/
def lflat : {h : Nat} → Ctx K V H h → List (K × V)
  | _, .top => []
  | _, .fr _ _ pre _ up => up.lflat ++ (Row.kidsH pre).flatMap fun t => t.erase.flat

/-- Items to the right. -/
def rflat : {h : Nat} → Ctx K V H h → List (K × V)
  | _, .top => []
  | _, .fr _ _ _ post up => (post.flatMap fun p => p.2.erase.flat) ++ up.rflat

/-- parentIndexStack, top first. -/
def stack : {h : Nat} → Ctx K V H h → List Int
  | _, .top => []
  | _, .fr _ _ pre _ up => ((Row.kidsH pre).length - 1 : Int) :: up.stack

/-- No clean node above a dirty one, the subtree being clean or not. -/
def Clean : {h : Nat} → Ctx K V H h → Option Ref → Prop
  | _, .top, _ => True
  | _, .fr _ st pre post up, s =>
      (∀ c ∈ Row.kidsH pre ++ post.map Prod.snd, c.Clean ∧ (st.isSome → c.st.isSome)) ∧
      (st.isSome → s.isSome) ∧ up.Clean st

/-- The fewest entries a node in this place may have, if it is not a leaf. -/
def lo (min : Nat) : {h : Nat} → Ctx K V H h → Nat
  | _, .top => 1
  | _, .fr _ _ _ _ _ => min

/-- Occupancy of everything but the subtree. -/
def Occ (min max : Nat) : {h : Nat} → Ctx K V H h → Prop
  | _, .top => True
  | _, .fr _ _ pre post up =>
      (∀ c ∈ Row.kidsH pre ++ post.map Prod.snd, c.erase.Occ min max) ∧
      (up.lo min ≤ (Row.kidsH pre).length + post.length ∧
        (Row.kidsH pre).length + post.length ≤ max) ∧ up.Occ min max

end Ctx

theorem Gt.kid_inner {h : Nat} (i : Id) (st : Option Ref) (r : Row K (Gt K V h)) :
    (Gt.inner i st r).kid = ⟨i, (r.map Gt.kid).total, st⟩ := by
  simp [Gt.kid, Row.total, cnt_inner, Function.comp_def]

section
variable {H h : Nat}

theorem Ctx.row_eq (pre : Hole K (Gt K V h)) (t : Gt K V h) (post) :
    (Row.plug pre t post).map Gt.kid = Ctx.row pre t.kid post := by simp [Ctx.row]

theorem bun_plug (P : Par K) : ∀ {h : Nat} (C : Ctx K V H h) (t : Gt K V h),
    bun P ⟨none, true⟩ (C.plug t) = bun P C.pos t + C.bun P t.kid
  | _, .top, t => by simp [Ctx.plug, Ctx.bun, Ctx.pos]
  | _, .fr id st pre post up, t => by
      rw [Ctx.plug, bun_plug P up, bun_inner, Ctx.row_eq, Gt.kid_inner, Ctx.row_eq]
      simp only [Ctx.bun, Ctx.pos, Row.kids_plug]
      have := kidsB_append P id (Row.kidsH pre) (t :: post.map Prod.snd)
      rw [kidsB_cons] at this
      unfold kidsB at this ⊢
      rw [this]
      abel

theorem Ctx.plug_clean : ∀ {h : Nat} (C : Ctx K V H h) (t : Gt K V h), (C.plug t).Clean ↔ C.Clean t.st ∧ t.Clean
  | _, .top, t => by simp [Ctx.plug, Ctx.Clean]
  | _, .fr id st pre post up, t => by
      rw [Ctx.plug, Ctx.plug_clean up, Clean_inner, Ctx.Clean]
      simp only [Row.kids_plug, List.mem_append, List.mem_cons, st_inner]
      constructor
      · rintro ⟨h1, h2⟩
        exact ⟨⟨fun c hc => h2 c (hc.imp_right .inr), (h2 t (.inr (.inl rfl))).2, h1⟩, (h2 t (.inr (.inl rfl))).1⟩
      · rintro ⟨⟨h1, h2, h3⟩, h4⟩
        refine ⟨h3, ?_⟩
        rintro c (hc | rfl | hc)
        · exact h1 c (.inl hc)
        · exact ⟨h4, h2⟩
        · exact h1 c (.inr hc)

theorem Ctx.plug_flat : ∀ {h : Nat} (C : Ctx K V H h) (t : Gt K V h),
    (C.plug t).erase.flat = C.lflat ++ t.erase.flat ++ C.rflat
  | _, .top, t => by simp [Ctx.plug, Ctx.lflat, Ctx.rflat]
  | _, .fr id st pre post up, t => by
      rw [Ctx.plug, Ctx.plug_flat up]
      simp [Ctx.lflat, Ctx.rflat, List.flatMap_append, List.flatMap_map]

theorem Ctx.plug_seq : ∀ {h : Nat} (C : Ctx K V H h) (t : Gt K V h),
    (C.plug t).erase.seq = C.lseq ++ t.erase.seq ++ C.rseq
  | _, .top, t => by simp [Ctx.plug, Ctx.lseq, Ctx.rseq]
  | _, .fr id st none post up, t => by
      rw [Ctx.plug, Ctx.plug_seq up]
      simp [Ctx.lseq, Ctx.rseq, seq_inner, Row.plug, List.flatMap_map]
  | _, .fr id st (some (r, k)) post up, t => by
      rw [Ctx.plug, Ctx.plug_seq up]
      simp [Ctx.lseq, Ctx.rseq, seq_inner, Row.plug, List.flatMap_map]

end

end SM.BT

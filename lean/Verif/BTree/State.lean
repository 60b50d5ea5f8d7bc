import Verif.BTree.LruProofs
import Verif.BTree.Model
import Verif.LLRB.Api
import Verif.LLRB.Read
import Mathlib.Data.Multiset.Bind
import Mathlib.Algebra.BigOperators.Group.Multiset.Basic
import Mathlib.Tactic.Abel

/-!
The state assertions used in the B+Tree proofs.

`St w S` says that the heap of `w` contains the *cells* `S`: a cell records what a node struct
holds. Proofs about an action name the cells it works on and leave the others as a frame, so
nothing is said about the rest of the heap. `LruIs` says what the two cache lists hold.
-/

namespace SM.BT

variable {K V : Type}

/-! ### Running actions -/

section
variable {α β : Type}

@[simp] theorem pure_run (a : α) (w : World K V) : (pure a : M K V α) w = (.ok a, w) := rfl
@[simp] theorem throw_run (e : Err) (w : World K V) : (M.throw e : M K V α) w = (.err e, w) := rfl
@[simp] theorem fatal_run (w : World K V) : (M.fatal : M K V α) w = (.fatal, w) := rfl

theorem bind_ok {m : M K V α} {f : α → M K V β} {w w' : World K V} {a : α}
    (h : m w = (.ok a, w')) : (m >>= f) w = f a w' := by
  show M.bind m f w = _
  simp [M.bind, h]

theorem bind_err {m : M K V α} {f : α → M K V β} {w w' : World K V} {e : Err}
    (h : m w = (.err e, w')) : (m >>= f) w = (.err e, w') := by
  show M.bind m f w = _
  simp [M.bind, h]

@[simp] theorem pure_bind_run (a : α) (f : α → M K V β) (w : World K V) :
    ((pure a : M K V α) >>= f) w = f a w := rfl
@[simp] theorem getN_bind (i : Id) (f : NodeS K V → M K V β) (w : World K V) :
    (getN i >>= f) w = f (w.node i) w := rfl
@[simp] theorem getP_bind (i : Id) (f : PSum → M K V β) (w : World K V) :
    (getP i >>= f) w = f (w.ps i) w := rfl
@[simp] theorem getT_bind (τ : TreeId) (f : TreeS → M K V β) (w : World K V) :
    (getT τ >>= f) w = f (w.trees τ) w := rfl
@[simp] theorem modN_bind (i : Id) (g : NodeS K V → NodeS K V) (f : Unit → M K V β) (w : World K V) :
    (modN i g >>= f) w = f () { w with node := upd w.node i (g (w.node i)) } := rfl
@[simp] theorem modP_bind (i : Id) (g : PSum → PSum) (f : Unit → M K V β) (w : World K V) :
    (modP i g >>= f) w = f () { w with ps := upd w.ps i (g (w.ps i)) } := rfl
@[simp] theorem modT_bind (i : TreeId) (g : TreeS → TreeS) (f : Unit → M K V β) (w : World K V) :
    (modT i g >>= f) w = f () { w with trees := upd w.trees i (g (w.trees i)) } := rfl
@[simp] theorem deref_some_bind (a : α) (f : α → M K V β) (w : World K V) :
    (M.deref (some a) >>= f) w = f a w := rfl
@[simp] theorem must_some_bind (n : Nat) (a : α) (f : α → M K V β) (w : World K V) :
    (M.must n (some a) >>= f) w = f a w := rfl
@[simp] theorem check_true_bind (n : Nat) (f : Unit → M K V β) (w : World K V) :
    (M.check n true >>= f) w = f () w := rfl
@[simp] theorem deref_some_run (a : α) (w : World K V) :
    (M.deref (some a) : M K V α) w = (.ok a, w) := rfl

theorem bind_assoc_run {γ : Type} (m : M K V α) (f : α → M K V β) (g : β → M K V γ) :
    (m >>= f) >>= g = m >>= fun a => f a >>= g := by
  funext w
  show M.bind (M.bind m f) g w = M.bind m (fun a => M.bind (f a) g) w
  simp only [M.bind]
  rcases m w with ⟨_ | _ | _, _⟩ <;> rfl

theorem attempt_ok {m : M K V α} {w w' : World K V} {a : α} (h : m w = (.ok a, w')) :
    M.attempt m w = (.ok (.ok a), w') := by simp [M.attempt, h]

theorem attempt_err {m : M K V α} {w w' : World K V} {e : Err} (h : m w = (.err e, w')) :
    M.attempt m w = (.ok (.error e), w') := by simp [M.attempt, h]

/-- How a run may end: `Q` after a result, `E` after an error, never a panic. -/
def Res (r : Out α × World K V) (Q : α → World K V → Prop) (E : Err → World K V → Prop) : Prop :=
  match r with
  | (.ok a, w) => Q a w
  | (.err e, w) => E e w
  | (.fatal, _) => False

theorem Res.ok {r : Out α × World K V} {a : α} {w : World K V} (h : r = (.ok a, w))
    {Q : α → World K V → Prop} {E : Err → World K V → Prop} (hq : Q a w) : Res r Q E := by
  subst h; exact hq

theorem Res.err {r : Out α × World K V} {e : Err} {w : World K V} (h : r = (.err e, w))
    {Q : α → World K V → Prop} {E : Err → World K V → Prop} (hq : E e w) : Res r Q E := by
  subst h; exact hq

theorem Res.bind {m : M K V α} {f : α → M K V β} {w : World K V}
    {Q : α → World K V → Prop} {E : Err → World K V → Prop} {Q' : β → World K V → Prop}
    {E' : Err → World K V → Prop}
    (h : Res (m w) Q E) (he : ∀ e w', E e w' → E' e w')
    (hf : ∀ a w', Q a w' → Res (f a w') Q' E') : Res ((m >>= f) w) Q' E' := by
  rcases hm : m w with ⟨_ | _ | _, w'⟩
  · rw [bind_ok hm]; rw [hm] at h; exact hf _ _ h
  · rw [bind_err hm]; rw [hm] at h; exact he _ _ h
  · rw [hm] at h; exact h.elim

theorem Res.mono {r : Out α × World K V} {Q Q' : α → World K V → Prop} {E E' : Err → World K V → Prop}
    (h : Res r Q E) (hq : ∀ a w, Q a w → Q' a w) (he : ∀ e w, E e w → E' e w) : Res r Q' E' := by
  rcases r with ⟨_ | _ | _, w⟩
  · exact hq _ _ h
  · exact he _ _ h
  · exact h

theorem Res.cases {r : Out α × World K V} {Q : α → World K V → Prop} {E : Err → World K V → Prop}
    (h : Res r Q E) : (∃ a w, r = (.ok a, w) ∧ Q a w) ∨ (∃ e w, r = (.err e, w) ∧ E e w) := by
  rcases r with ⟨_ | _ | _, w⟩
  · exact .inl ⟨_, _, rfl, h⟩
  · exact .inr ⟨_, _, rfl, h⟩
  · exact h.elim

end

/-! ### Cells -/

/-- A compare function with what is assumed of it. -/
structure Cmp (K : Type) where
  cmp : Compare K
  Valid : K → Prop
  law : Lawful cmp Valid

/-- Parameters of a tree. -/
structure Par (K : Type) extends Cmp K where
  τ : TreeId
  ca : Bool
  max : Nat
  four : 4 ≤ max
  even : 2 * (max / 2) = max

/-- minKeysPerNode -/
def Par.min (P : Par K) : Nat := P.max / 2

/-- What a node struct holds: nothing but a count if not loaded; the items of a leaf; the children
of a non-leaf, and, if its prefix-sum tree is in order, the children with their counts; or just
the fields (while they are being changed). -/
inductive Body (K V : Type) where
  | unl (items : Nat)
  | leaf (items : Nat) (l : List (K × V))
  | inner (items : Nat) (c0 : Id) (cs : List (K × Id)) (ps : Option (List (Id × Nat)))
  | raw (ld : Bool) (items : Nat) (leaf : Bool) (left : Option Id) (l : List (K × Val V))

/-- The children. -/
def Body.kids : Body K V → List Id
  | .inner _ c0 cs _ => c0 :: cs.map Prod.snd
  | _ => []

/-- A node struct in the heap. -/
structure Cell (K V : Type) where
  cm : Cmp K
  id : Id
  tree : TreeId
  parent : Option Id
  root : Bool
  ref : Ref
  dirty : Bool
  body : Body K V

/-- Leaf entries as stored in kvLLRB. -/
def leafKv (l : List (K × V)) : List (K × Val V) := l.map fun p => (p.1, .item p.2)
/-- Non-leaf entries as stored in kvLLRB. -/
def innerKv (l : List (K × Id)) : List (K × Val V) := l.map fun p => (p.1, .node p.2)

theorem leafKv_append (a b : List (K × V)) : leafKv (a ++ b) = leafKv a ++ leafKv b := by simp [leafKv]
theorem innerKv_append (a b : List (K × Id)) : (innerKv (a ++ b) : List (K × Val V)) = innerKv a ++ innerKv b := by
  simp [innerKv]
theorem leafKv_cons (p : K × V) (b : List (K × V)) : leafKv (p :: b) = (p.1, .item p.2) :: leafKv b := rfl
theorem innerKv_cons (p : K × Id) (b : List (K × Id)) : (innerKv (p :: b) : List (K × Val V)) = (p.1, .node p.2) :: innerKv b := rfl
theorem leafKv_length (a : List (K × V)) : (leafKv a).length = a.length := by simp [leafKv]
theorem innerKv_length (a : List (K × Id)) : (innerKv a : List (K × Val V)).length = a.length := by simp [innerKv]

/-- The kvLLRB is a proper LLRB tree holding this list. -/
def KvIs (C : Cmp K) (kv : Option (LLRB.Tree K (Val V))) (l : List (K × Val V)) : Prop :=
  ∃ t, kv = some t ∧ LLRB.Tree.OK C.cmp C.Valid t ∧ t.toList = l

/-- A prefix-sum tree: node, its count, its index in the parent. -/
inductive PT where
  | nil
  | node (l : PT) (i : Id) (c : Nat) (x : Int) (r : PT)

namespace PT
/-- The top node. -/
def root? : PT → Option Id
  | nil => none
  | node _ i _ _ _ => some i
/-- Total count. -/
def sum : PT → Nat
  | nil => 0
  | node l _ c _ r => l.sum + c + r.sum
/-- In order. -/
def list : PT → List (Id × Nat × Int)
  | nil => []
  | node l i c x r => l.list ++ (i, c, x) :: r.list
/-- The prefix-sum fields hold this tree; `p` is the parent of its top. -/
def Rep (ps : Id → PSum) (p : Option Id) : PT → Prop
  | nil => True
  | node l i c x r =>
      ps i = { items := l.sum + c + r.sum, kvIndex := x, parent := p, left := l.root?, right := r.root? } ∧
      Rep ps (some i) l ∧ Rep ps (some i) r
/-- A node with a right child has a left child. -/
def Shape : PT → Prop
  | nil => True
  | node l _ _ _ r => (r ≠ nil → l ≠ nil) ∧ Shape l ∧ Shape r
end PT

/-- Children with their counts and indices, the first being at index -1. -/
def idxFrom : Int → List (Id × Nat) → List (Id × Nat × Int)
  | _, [] => []
  | x, (i, c) :: l => (i, c, x) :: idxFrom (x + 1) l

/-- The prefix-sum tree below `root` is in order. -/
def PSOK (ps : Id → PSum) (root : Option Id) (q : List (Id × Nat)) : Prop :=
  ∃ b : PT, b.list = idxFrom (-1) q ∧ b.Rep ps none ∧ root = b.root? ∧ b.Shape

/-- The body of a cell against a node struct. -/
def BodyIs (C : Cmp K) (n : NodeS K V) (ps : Id → PSum) : Body K V → Prop
  | .unl items => n.loaded = false ∧ n.items = items
  | .leaf items l => n.loaded = true ∧ n.leaf = true ∧ n.items = items ∧ KvIs C n.kv (leafKv l)
  | .inner items c0 cs q =>
      n.loaded = true ∧ n.leaf = false ∧ n.items = items ∧ n.left = some c0 ∧ KvIs C n.kv (innerKv cs) ∧
      ∀ q', q = some q' → q'.map Prod.fst = c0 :: cs.map Prod.snd ∧ PSOK ps n.psRoot q'
  | .raw ld items leaf left l =>
      n.loaded = ld ∧ n.leaf = leaf ∧ n.items = items ∧ n.left = left ∧ KvIs C n.kv l

/-- A cell against the heap. -/
structure CellOK (w : World K V) (c : Cell K V) : Prop where
  tree : (w.node c.id).tree = c.tree
  parent : (w.node c.id).parent = c.parent
  root : (w.node c.id).root = c.root
  ref : (w.node c.id).ref = c.ref
  dirty : (w.node c.id).dirty = c.dirty
  body : BodyIs c.cm (w.node c.id) w.ps c.body

/-- The ids of cells. -/
def idsOf (S : Multiset (Cell K V)) : Multiset Id := S.map Cell.id
/-- The children of cells. -/
def kidsOf (S : Multiset (Cell K V)) : Multiset Id := S.bind fun c => (c.body.kids : Multiset Id)

@[simp] theorem idsOf_add (S T : Multiset (Cell K V)) : idsOf (S + T) = idsOf S + idsOf T := by
  simp [idsOf]
@[simp] theorem kidsOf_add (S T : Multiset (Cell K V)) : kidsOf (S + T) = kidsOf S + kidsOf T := by
  simp [kidsOf]
@[simp] theorem idsOf_zero : idsOf (0 : Multiset (Cell K V)) = 0 := rfl
@[simp] theorem kidsOf_zero : kidsOf (0 : Multiset (Cell K V)) = 0 := rfl
@[simp] theorem idsOf_singleton (c : Cell K V) : idsOf {c} = {c.id} := rfl
@[simp] theorem kidsOf_singleton (c : Cell K V) : kidsOf {c} = (c.body.kids : Multiset Id) := by
  simp [kidsOf]
@[simp] theorem idsOf_cons (c : Cell K V) (S) : idsOf (c ::ₘ S) = c.id ::ₘ idsOf S := by
  simp [idsOf]
@[simp] theorem kidsOf_cons (c : Cell K V) (S) : kidsOf (c ::ₘ S) = (c.body.kids : Multiset Id) + kidsOf S := by
  simp [kidsOf]

theorem mem_idsOf {c : Cell K V} {S} (h : c ∈ S) : c.id ∈ idsOf S := Multiset.mem_map_of_mem _ h

theorem mem_kidsOf {c : Cell K V} {S} (h : c ∈ S) {i : Id} (hi : i ∈ c.body.kids) : i ∈ kidsOf S := by
  simp only [kidsOf, Multiset.mem_bind]; exact ⟨c, h, by simpa using hi⟩

/-- The address has been given away. -/
def World.Old (w : World K V) (i : Id) : Prop := i.2 < w.next i.1

theorem World.Old.mono {w w' : World K V} {i : Id} (h : w.Old i) (hn : w.next ≤ w'.next) : w'.Old i := Nat.lt_of_lt_of_le h (hn i.1)

theorem World.Old.ne {w : World K V} {i : Id} (h : w.Old i) (τ : TreeId) : i ≠ w.addr τ := by
  rintro rfl; exact Nat.lt_irrefl _ h

/-- One more address of a tree has been given away. -/
def World.Took (w w' : World K V) (τ : TreeId) : Prop := w'.next = upd w.next τ (w.next τ + 1)

theorem World.Took.le {w w' : World K V} {τ : TreeId} (h : w.Took w' τ) : w.next ≤ w'.next := fun σ => by
  rw [show w'.next = _ from h, upd]
  split
  · rename_i e; subst e; exact Nat.le_succ _
  · exact Nat.le_refl _

theorem World.Took.old {w w' : World K V} {τ : TreeId} (h : w.Took w' τ) : w'.Old (w.addr τ) := by
  show w.next τ < w'.next τ
  rw [show w'.next = _ from h]
  simp [upd]

/-- The heap contains these cells, and besides the prefix-sum fields of the nodes `X`, which are no
cell's children. -/
structure St (w : World K V) (S : Multiset (Cell K V)) (X : Multiset Id) : Prop where
  cell : ∀ c ∈ S, CellOK w c
  nodup : (idsOf S).Nodup
  lt : ∀ i ∈ idsOf S, w.Old i
  kids : (kidsOf S + X).Nodup
  kidlt : ∀ i ∈ kidsOf S + X, w.Old i

/-! ### Prefix sums depend only on the children -/

theorem PT.root?_mem {b : PT} {i : Id} (h : b.root? = some i) : i ∈ b.list.map Prod.fst := by
  cases b with
  | nil => simp [root?] at h
  | node l j c x r => simp [root?] at h; subst h; simp [list]

theorem PT.Rep.congr {ps ps' : Id → PSum} : ∀ {b : PT} {p : Option Id}, b.Rep ps p →
    (∀ i ∈ b.list.map Prod.fst, ps' i = ps i) → b.Rep ps' p
  | .nil, _, _, _ => trivial
  | .node l i c x r, p, h, e => by
      simp only [Rep] at h ⊢
      simp only [list, List.map_append, List.map_cons, List.mem_append, List.mem_cons] at e
      exact ⟨by rw [e i (by simp)]; exact h.1, h.2.1.congr (fun j hj => e j (.inl hj)),
        h.2.2.congr (fun j hj => e j (.inr (.inr hj)))⟩

theorem idxFrom_fst (x : Int) (q : List (Id × Nat)) : (idxFrom x q).map Prod.fst = q.map Prod.fst := by
  induction q generalizing x with
  | nil => rfl
  | cons p q ih => simp [idxFrom, ih]

theorem PSOK.congr {ps ps' : Id → PSum} {r : Option Id} {q : List (Id × Nat)} (h : PSOK ps r q)
    (e : ∀ i ∈ q.map Prod.fst, ps' i = ps i) : PSOK ps' r q := by
  obtain ⟨b, h1, h2, h3, h4⟩ := h
  exact ⟨b, h1, h2.congr (by rw [h1, idxFrom_fst]; exact e), h3, h4⟩

theorem BodyIs.congr_ps {C : Cmp K} {n : NodeS K V} {ps ps' : Id → PSum} {b : Body K V}
    (h : BodyIs C n ps b) (e : ∀ i ∈ b.kids, ps' i = ps i) : BodyIs C n ps' b := by
  cases b with
  | unl => exact h
  | leaf => exact h
  | raw => exact h
  | inner items c0 cs q =>
    obtain ⟨h1, h2, h3, h4, h5, h6⟩ := h
    refine ⟨h1, h2, h3, h4, h5, fun q' hq => ?_⟩
    obtain ⟨h7, h8⟩ := h6 q' hq
    exact ⟨h7, h8.congr (by rw [h7]; exact e)⟩

theorem CellOK.congr {w w' : World K V} {c : Cell K V} (h : CellOK w c)
    (hn : w'.node c.id = w.node c.id) (hp : ∀ i ∈ c.body.kids, w'.ps i = w.ps i) : CellOK w' c :=
  ⟨by rw [hn]; exact h.tree, by rw [hn]; exact h.parent, by rw [hn]; exact h.root,
   by rw [hn]; exact h.ref, by rw [hn]; exact h.dirty, by rw [hn]; exact h.body.congr_ps hp⟩

/-! ### Changing cells -/

/-- Replace the cells `A` by `A'`, everything else being as before. -/
theorem St.swap {w w' : World K V} {A A' R : Multiset (Cell K V)} {X X' Y : Multiset Id} (h : St w (A + R) (X + Y))
    (hid : idsOf A' = idsOf A) (hkids : kidsOf A' + X' = kidsOf A + X)
    (hnode : ∀ i, i ∉ idsOf A → w'.node i = w.node i)
    (hps : ∀ i, i ∉ kidsOf A + X → w'.ps i = w.ps i)
    (hnext : w'.next = w.next)
    (hok : ∀ c ∈ A', CellOK w' c) : St w' (A' + R) (X' + Y) := by
  have hn := h.nodup; have hk := h.kids
  simp only [idsOf_add, kidsOf_add] at hn hk
  have ek : kidsOf (A' + R) + (X' + Y) = kidsOf (A + R) + (X + Y) := by
    have : kidsOf (A' + R) + (X' + Y) = (kidsOf A' + X') + (kidsOf R + Y) := by simp only [kidsOf_add]; abel
    rw [this, hkids]; simp only [kidsOf_add]; abel
  refine ⟨fun c hc => ?_, by simpa [hid] using hn, ?_, by rw [ek]; exact h.kids, by rw [ek]; exact fun i hi => (h.kidlt i hi).mono hnext.ge⟩
  · rcases Multiset.mem_add.1 hc with hc | hc
    · exact hok c hc
    · refine (h.cell c (Multiset.mem_add.2 (.inr hc))).congr (hnode _ fun hi => ?_) fun i hi => hps _ fun hi' => ?_
      · exact Multiset.disjoint_left.1 (Multiset.nodup_add.1 hn).2.2 hi (mem_idsOf hc)
      · have hk2 : ((kidsOf A + X) + (kidsOf R + Y)).Nodup := by
          have e : (kidsOf A + X) + (kidsOf R + Y) = kidsOf A + kidsOf R + (X + Y) := by abel
          rw [e]; exact hk
        exact Multiset.disjoint_left.1 (Multiset.nodup_add.1 hk2).2.2 hi' (Multiset.mem_add.2 (.inl (mem_kidsOf hc hi)))
  · intro i hi; exact World.Old.mono (h.lt i (by simpa [hid] using hi)) hnext.ge

/-- Replace one cell. -/
theorem St.set {w w' : World K V} {c c' : Cell K V} {R : Multiset (Cell K V)} {X : Multiset Id} (h : St w (c ::ₘ R) X)
    (hid : c'.id = c.id) (hkids : c'.body.kids = c.body.kids)
    (hnode : ∀ i, i ≠ c.id → w'.node i = w.node i)
    (hps : ∀ i, i ∉ c.body.kids → w'.ps i = w.ps i)
    (hnext : w'.next = w.next)
    (hok : CellOK w' c') : St w' (c' ::ₘ R) X := by
  rw [← Multiset.singleton_add] at h ⊢
  rw [← zero_add X] at h ⊢
  refine h.swap (by simp [hid]) (by simp [hkids]) (fun i hi => hnode i ?_) (fun i hi => hps i ?_) hnext ?_
  · simpa using hi
  · simpa using hi
  · simpa using hok

/-- Nothing changed that cells speak of. -/
theorem St.same {w w' : World K V} {S : Multiset (Cell K V)} {X : Multiset Id} (h : St w S X) (hn : w'.node = w.node)
    (hp : w'.ps = w.ps) (hx : w'.next = w.next) : St w' S X :=
  ⟨fun c hc => (h.cell c hc).congr (by rw [hn]) (by simp [hp]), h.nodup, fun i hi => (h.lt i hi).mono hx.ge, h.kids,
   fun i hi => (h.kidlt i hi).mono hx.ge⟩

/-- A cell without children and with a new id. -/
theorem St.new {w w' : World K V} {c : Cell K V} {S : Multiset (Cell K V)} {X : Multiset Id} {τ : TreeId} (h : St w S X)
    (hid : c.id = w.addr τ) (hx : w.Took w' τ) (hn : ∀ i, i ≠ w.addr τ → w'.node i = w.node i)
    (hp : ∀ i, i ≠ w.addr τ → w'.ps i = w.ps i) (hk : c.body.kids = []) (hok : CellOK w' c) :
    St w' (c ::ₘ S) (w.addr τ ::ₘ X) := by
  refine ⟨?_, ?_, ?_, ?_, ?_⟩
  · intro d hd
    rcases Multiset.mem_cons.1 hd with rfl | hd
    · exact hok
    · exact (h.cell d hd).congr (hn _ ((h.lt _ (mem_idsOf hd)).ne τ))
        fun i hi => hp _ ((h.kidlt _ (Multiset.mem_add.2 (.inl (mem_kidsOf hd hi)))).ne τ)
  · simp only [idsOf_cons, Multiset.nodup_cons]
    exact ⟨fun hi => (h.lt _ hi).ne τ hid, h.nodup⟩
  · intro i hi
    simp only [idsOf_cons, Multiset.mem_cons] at hi
    rcases hi with rfl | hi
    · rw [hid]; exact hx.old
    · exact (h.lt _ hi).mono hx.le
  · have e : kidsOf (c ::ₘ S) + w.addr τ ::ₘ X = w.addr τ ::ₘ (kidsOf S + X) := by simp [hk]
    rw [e, Multiset.nodup_cons]
    exact ⟨fun hi => (h.kidlt _ hi).ne τ rfl, h.kids⟩
  · intro i hi
    have e : kidsOf (c ::ₘ S) + w.addr τ ::ₘ X = w.addr τ ::ₘ (kidsOf S + X) := by simp [hk]
    rw [e] at hi
    rcases Multiset.mem_cons.1 hi with rfl | hi
    · exact hx.old
    · exact (h.kidlt _ hi).mono hx.le

/-- Forget cells. -/
theorem St.le {w : World K V} {S T : Multiset (Cell K V)} {X Y : Multiset Id} (h : St w S X) (hle : T ≤ S) (hx : Y ≤ X) :
    St w T Y := by
  obtain ⟨R, rfl⟩ := Multiset.le_iff_exists_add.1 hle
  have hn := h.nodup; have hk := h.kids
  simp only [idsOf_add] at hn
  have hle' : kidsOf T + Y ≤ kidsOf (T + R) + X := by
    rw [kidsOf_add]; exact add_le_add (Multiset.le_add_right _ _) hx
  exact ⟨fun c hc => h.cell c (Multiset.mem_of_le hle hc), (Multiset.nodup_add.1 hn).1,
    fun i hi => h.lt i (by simp [hi]), Multiset.nodup_of_le hle' hk, fun i hi => h.kidlt i (Multiset.mem_of_le hle' hi)⟩

theorem St.ne {w : World K V} {c d : Cell K V} {S : Multiset (Cell K V)} {X : Multiset Id} (h : St w (c ::ₘ d ::ₘ S) X) :
    c.id ≠ d.id := by
  have := h.nodup
  simp only [idsOf_cons, Multiset.nodup_cons, Multiset.mem_cons, not_or] at this
  exact this.1.1

theorem St.head {w : World K V} {c : Cell K V} {S : Multiset (Cell K V)} {X : Multiset Id} (h : St w (c ::ₘ S) X) :
    CellOK w c := h.cell c (Multiset.mem_cons_self c S)

/-- Take the children out of a non-leaf. -/
theorem St.open {w : World K V} {c : Cell K V} {S : Multiset (Cell K V)} {X : Multiset Id} {items : Nat} {c0 : Id}
    {cs : List (K × Id)} {q : Option (List (Id × Nat))} (h : St w (c ::ₘ S) X) (hb : c.body = .inner items c0 cs q) :
    St w ({ c with body := .raw true items false (some c0) (innerKv cs) } ::ₘ S) (((c0 :: cs.map Prod.snd : List Id) : Multiset Id) + X) := by
  have hc := h.head
  rw [← Multiset.singleton_add] at h ⊢
  rw [← zero_add X] at h
  refine h.swap (by simp) (by simp [hb, Body.kids]) (fun _ _ => rfl) (fun _ _ => rfl) rfl ?_
  simp only [Multiset.mem_singleton, forall_eq]
  have hh := hc.body
  rw [hb] at hh
  exact ⟨hc.tree, hc.parent, hc.root, hc.ref, hc.dirty, ⟨hh.1, hh.2.1, hh.2.2.1, hh.2.2.2.1, hh.2.2.2.2.1⟩⟩

/-- Put the children back; the prefix-sum tree is not in order. -/
theorem St.close {w : World K V} {c : Cell K V} {S : Multiset (Cell K V)} {X : Multiset Id} {items : Nat} {c0 : Id}
    {cs : List (K × Id)} (h : St w (c ::ₘ S) (((c0 :: cs.map Prod.snd : List Id) : Multiset Id) + X))
    (hb : c.body = .raw true items false (some c0) (innerKv cs)) :
    St w ({ c with body := .inner items c0 cs none } ::ₘ S) X := by
  have hc := h.head
  rw [← Multiset.singleton_add] at h ⊢
  rw [← zero_add X]
  refine h.swap (by simp) (by simp [hb, Body.kids]) (fun _ _ => rfl) (fun _ _ => rfl) rfl ?_
  simp only [Multiset.mem_singleton, forall_eq]
  have hh := hc.body
  rw [hb] at hh
  exact ⟨hc.tree, hc.parent, hc.root, hc.ref, hc.dirty, ⟨hh.1, hh.2.1, hh.2.2.1, hh.2.2.2.1, hh.2.2.2.2, by simp⟩⟩

/-- A leaf's fields. -/
theorem St.openLeaf {w : World K V} {c : Cell K V} {S : Multiset (Cell K V)} {X : Multiset Id} {items : Nat}
    {l : List (K × V)} (h : St w (c ::ₘ S) X) (hb : c.body = .leaf items l) :
    ∃ left, St w ({ c with body := .raw true items true left (leafKv l) } ::ₘ S) X := by
  have hc := h.head
  have hh := hc.body
  rw [hb] at hh
  refine ⟨(w.node c.id).left, h.set rfl (by simp [hb, Body.kids]) (fun _ _ => rfl) (fun _ _ => rfl) rfl ?_⟩
  exact ⟨hc.tree, hc.parent, hc.root, hc.ref, hc.dirty, ⟨hh.1, hh.2.1, hh.2.2.1, rfl, hh.2.2.2⟩⟩

theorem St.closeLeaf {w : World K V} {c : Cell K V} {S : Multiset (Cell K V)} {X : Multiset Id} {items : Nat}
    {l : List (K × V)} {left : Option Id} (h : St w (c ::ₘ S) X) (hb : c.body = .raw true items true left (leafKv l)) :
    St w ({ c with body := .leaf items l } ::ₘ S) X := by
  have hc := h.head
  have hh := hc.body
  rw [hb] at hh
  refine h.set rfl (by simp [hb, Body.kids]) (fun _ _ => rfl) (fun _ _ => rfl) rfl ?_
  exact ⟨hc.tree, hc.parent, hc.root, hc.ref, hc.dirty, ⟨hh.1, hh.2.1, hh.2.2.1, hh.2.2.2.2⟩⟩

/-! ### The cache lists -/

/-- The two lists hold exactly these nodes; `true` marks the dirty list. -/
def LruIs (s : LruS) (L : Multiset (Id × Bool)) : Prop :=
  ∃ l, LruS.WF s l ∧ L = Multiset.ofList ((l false).map (·, false)) + Multiset.ofList ((l true).map (·, true))

theorem LruIs.mem {s : LruS} {L} (h : LruIs s L) {x : Id} {d : Bool} :
    (x, d) ∈ L ↔ (s.el x).tag = LruS.tagOf d := by
  obtain ⟨l, h, rfl⟩ := h
  rw [h.tag]
  cases d <;> simp

theorem LruIs.tag_none {s : LruS} {L} (h : LruIs s L) {x : Id} :
    (s.el x).tag = .noLRU ↔ ∀ d, (x, d) ∉ L := by
  constructor
  · intro e d hd
    rw [h.mem, e] at hd
    exact LruS.tagOf_ne d hd.symm
  · intro e
    rcases LruS.tag_cases (s.el x).tag with h1 | ⟨d, h1⟩
    · exact h1
    · exact absurd (h.mem.2 h1) (e d)

theorem LruIs.count {s : LruS} {L} (h : LruIs s L) :
    s.clean.items + s.dirty.items = Multiset.card L := by
  obtain ⟨l, h, rfl⟩ := h
  have h1 := (h.lst false).items; have h2 := (h.lst true).items
  simp [LruS.lst] at h1 h2
  simp [h1, h2]

theorem LruIs.empty : LruIs LruS.empty 0 := ⟨fun _ => [], LruS.WF.empty, by simp⟩

theorem LruIs.used {s : LruS} {L} (h : LruIs s L) {x : Id} {d : Bool} (hx : (x, d) ∈ L) :
    ∃ s', s.used x = some s' ∧ LruIs s' L := by
  have ht : (s.el x).tag ≠ .noLRU := by rw [h.mem.1 hx]; exact LruS.tagOf_ne d
  obtain ⟨l, h, rfl⟩ := h
  obtain ⟨s', h1, h2, -⟩ := LruS.used_spec h ht
  refine ⟨s', h1, _, h2, ?_⟩
  have hp : ∀ e : Bool, ((if x ∈ l e then (l e).erase x ++ [x] else l e)).Perm (l e) := by
    intro e
    split
    · rename_i hm
      exact (List.perm_append_comm).trans (List.perm_cons_erase hm).symm
    · exact .refl _
  congr 1
  · exact (Multiset.coe_eq_coe.2 ((hp false).map _)).symm
  · exact (Multiset.coe_eq_coe.2 ((hp true).map _)).symm

theorem LruIs.nodup {s : LruS} {L} (h : LruIs s L) : (L.map Prod.fst).Nodup := by
  obtain ⟨l, h, rfl⟩ := h
  simp only [Multiset.map_add, Multiset.map_coe, List.map_map, Function.comp_def, List.map_id']
  rw [Multiset.nodup_add]
  refine ⟨Multiset.coe_nodup.2 (h.nodup false), Multiset.coe_nodup.2 (h.nodup true), ?_⟩
  rw [Multiset.disjoint_left]
  intro a ha hb
  exact h.disj' (by simpa using ha) (by simpa using hb)

theorem LruIs.notin {s : LruS} {L} {x : Id} {b : Bool} (h : LruIs s ((x, b) ::ₘ L)) : ∀ d, (x, d) ∉ L := by
  have := h.nodup
  simp only [Multiset.map_cons, Multiset.nodup_cons] at this
  intro d hd
  exact this.1 (Multiset.mem_map.2 ⟨_, hd, rfl⟩)

theorem coe_erase_map (l : List Id) (x : Id) (d : Bool) :
    Multiset.ofList ((l.erase x).map (·, d)) = (Multiset.ofList (l.map (·, d))).erase (x, d) := by
  have := Multiset.map_erase (fun y : Id => (y, d)) (fun a b h => by simpa using h) x (Multiset.ofList l)
  rw [Multiset.coe_erase] at this
  simp only [Multiset.map_coe] at this
  convert this using 4
  all_goals apply lawful_beq_subsingleton

/-- Put a node at the end of a list, wherever it was before. -/
theorem LruIs.place' {s : LruS} {L} (h : LruIs s L) (x : Id) (d : Bool) :
    ∃ s', s.place d x = some s' ∧ LruIs s' ((x, d) ::ₘ ((L.erase (x, d)).erase (x, !d))) := by
  obtain ⟨l, h, rfl⟩ := h
  obtain ⟨s', h1, h2, -⟩ := LruS.place_spec h d x
  refine ⟨s', h1, _, h2, ?_⟩
  have key : ∀ A B : Multiset (Id × Bool), (∀ y, (y, true) ∉ A) → (∀ y, (y, false) ∉ B) →
      ((A + B).erase (x, d)).erase (x, !d) = A.erase (x, false) + B.erase (x, true) := by
    intro A B hA hB
    cases d <;> simp only [Bool.not_false, Bool.not_true]
    · by_cases hm : (x, false) ∈ A
      · rw [Multiset.erase_add_left_pos _ hm, Multiset.erase_add_right_neg _ (fun h => hA x (Multiset.mem_of_mem_erase h))]
      · rw [Multiset.erase_add_right_neg _ hm, Multiset.erase_of_notMem (hB x), Multiset.erase_add_right_neg _ (hA x),
          Multiset.erase_of_notMem hm]
    · rw [Multiset.erase_add_right_neg _ (hA x)]
      by_cases hm : (x, false) ∈ A
      · rw [Multiset.erase_add_left_pos _ (by simpa using hm)]
      · rw [Multiset.erase_add_right_neg _ (by simpa using hm), Multiset.erase_of_notMem hm,
          Multiset.erase_of_notMem (fun h => hB x (Multiset.mem_of_mem_erase h))]
  rw [key _ _ (by simp) (by simp), ← coe_erase_map, ← coe_erase_map]
  cases d <;> simp [← Multiset.singleton_add, ← Multiset.coe_add] <;> abel

theorem LruIs.place {s : LruS} {L} {x : Id} {b : Bool} (h : LruIs s ((x, b) ::ₘ L)) (d : Bool) :
    ∃ s', s.place d x = some s' ∧ LruIs s' ((x, d) ::ₘ L) := by
  have hn := h.notin
  obtain ⟨s', h1, h2⟩ := h.place' x d
  refine ⟨s', h1, ?_⟩
  have : (((x, b) ::ₘ L).erase (x, d)).erase (x, !d) = L := by
    rcases LruS.bool_cases d b with rfl | rfl
    · rw [Multiset.erase_cons_head, Multiset.erase_of_notMem (hn _)]
    · rw [Multiset.erase_cons_tail _ (by simp), Multiset.erase_cons_head, Multiset.erase_of_notMem (hn _)]
  rwa [this] at h2

theorem LruIs.placeFresh {s : LruS} {L} {x : Id} (h : LruIs s L) (hn : ∀ d, (x, d) ∉ L) (d : Bool) :
    ∃ s', s.place d x = some s' ∧ LruIs s' ((x, d) ::ₘ L) := by
  obtain ⟨s', h1, h2⟩ := h.place' x d
  refine ⟨s', h1, ?_⟩
  rwa [Multiset.erase_of_notMem (hn _), Multiset.erase_of_notMem (hn _)] at h2

theorem LruIs.drop {s : LruS} {L} {x : Id} {b : Bool} (h : LruIs s ((x, b) ::ₘ L)) :
    ∃ s', s.drop x = some s' ∧ LruIs s' L := by
  have hn := h.notin
  have ht : (s.el x).tag ≠ .noLRU := by
    rw [h.mem.1 (Multiset.mem_cons_self _ _)]; exact LruS.tagOf_ne b
  obtain ⟨l, h, e⟩ := h
  obtain ⟨s', h1, h2, -⟩ := LruS.drop_spec h ht
  refine ⟨s', h1, _, h2, ?_⟩
  have key : ∀ A B : Multiset (Id × Bool), (∀ y, (y, true) ∉ A) → (∀ y, (y, false) ∉ B) →
      ((A + B).erase (x, false)).erase (x, true) = A.erase (x, false) + B.erase (x, true) := by
    intro A B hA hB
    by_cases hm : (x, false) ∈ A
    · rw [Multiset.erase_add_left_pos _ hm, Multiset.erase_add_right_neg _ (fun h => hA x (Multiset.mem_of_mem_erase h))]
    · rw [Multiset.erase_add_right_neg _ hm, Multiset.erase_of_notMem (hB x), Multiset.erase_add_right_neg _ (hA x),
          Multiset.erase_of_notMem hm]
  rw [coe_erase_map, coe_erase_map, ← key _ _ (by simp) (by simp), ← e]
  cases b
  · rw [Multiset.erase_cons_head, Multiset.erase_of_notMem (hn _)]
  · rw [Multiset.erase_cons_tail _ (by simp), Multiset.erase_cons_head, Multiset.erase_of_notMem (hn _)]

theorem LruIs.init {s : LruS} {L} {x : Id} (h : LruIs s L) (hn : ∀ d, (x, d) ∉ L) :
    s.init x = s := by
  have ht := h.tag_none.2 hn
  obtain ⟨l, h, rfl⟩ := h
  exact LruS.init_spec h ht

end SM.BT

import Verif.BTree.Scene

/-!
What the node structs and the stored nodes look like as trees: levels, occupancy, and which node structs a tree has in memory, read off
the heap and the disk directly.
-/

namespace SM.BT

variable {K V : Type}

/-! ### Statements -/

/-- The node stored at a location has at least `lo` and at most `max` entries; there are `h` levels below it, all leaves on the last; and
every node below it has at least half of `max` entries and at most `max`. -/
inductive OnDisk (disk : Ref → Option (DiskNode K V)) (max : Nat) : Nat → Ref → Nat → Prop
  | leaf {lo : Nat} {r : Ref} {n : DiskNode K V} {l : List (K × V)} : disk r = some n → n.body = .leaf l → lo ≤ l.length → l.length ≤ max → OnDisk disk max lo r 0
  | inner {lo h : Nat} {r : Ref} {n : DiskNode K V} {c0 : Ref × Nat} {cs : List (K × (Ref × Nat))} : disk r = some n → n.body = .inner c0 cs → lo ≤ cs.length → cs.length ≤ max →
      OnDisk disk max (max / 2) c0.1 h → (∀ p ∈ cs, OnDisk disk max (max / 2) p.2.1 h) → OnDisk disk max lo r (h + 1)

/-- The same of a node struct, which may be loaded or not. -/
inductive InMem (w : World K V) (max : Nat) : Nat → Id → Nat → Prop
  | unl {lo h : Nat} {i : Id} : (w.node i).loaded = false → OnDisk w.disk max lo (w.node i).ref h → InMem w max lo i h
  | leaf {lo : Nat} {i : Id} {T : LLRB.Tree K (Val V)} : (w.node i).loaded = true → (w.node i).leaf = true → (w.node i).kv = some T →
      lo ≤ T.toList.length → T.toList.length ≤ max → (∀ p ∈ T.toList, ∃ x, p.2 = .item x) → InMem w max lo i 0
  | inner {lo h : Nat} {i c0 : Id} {T : LLRB.Tree K (Val V)} : (w.node i).loaded = true → (w.node i).leaf = false → (w.node i).left = some c0 → (w.node i).kv = some T →
      lo ≤ T.toList.length → T.toList.length ≤ max → InMem w max (max / 2) c0 h → (∀ p ∈ T.toList, ∃ c, p.2 = .node c) → (∀ k c, (k, .node c) ∈ T.toList → InMem w max (max / 2) c h) →
      InMem w max lo i (h + 1)

/-- A tree with `h` levels below its root: all leaves are on the last level, every node has at most `max` entries, and at least half of
that, except for the root, which has one entry unless it is a leaf. -/
def Balanced (w : World K V) (t : TreeId) (max h : Nat) : Prop := ∃ r, (w.trees t).root = some r ∧ InMem w max (if h = 0 then 0 else 1) r h

/-- The node structs of a tree. -/
inductive Holds (w : World K V) (t : TreeId) : Id → Prop
  | root {i : Id} : (w.trees t).root = some i → Holds w t i
  | left {i c : Id} : Holds w t i → (w.node i).loaded = true → (w.node i).leaf = false → (w.node i).left = some c → Holds w t c
  | kid {i c : Id} {T : LLRB.Tree K (Val V)} {k : K} : Holds w t i → (w.node i).loaded = true → (w.node i).leaf = false → (w.node i).kv = some T → (k, .node c) ∈ T.toList → Holds w t c

/-- From a pointer on, following `next`, one meets these and then nil. -/
def Chain (next : Id → Option Id) : Option Id → List Id → Prop
  | p, [] => p = none
  | p, x :: l => p = some x ∧ Chain next (next x) l

/-! ### Proofs -/

section
variable {P : Par K} {w : World K V} {h H : Nat}

theorem Seg.chain {el : Id → LruEl} : ∀ {l : List Id} {p : Option Id}, Seg el p l none → Chain (fun i => (el i).next) l.head? l
  | [], _, _ => rfl
  | x :: l, p, h => ⟨rfl, by have := h.2.2.chain; dsimp only; rw [h.2.1]; simpa using this⟩

theorem Seg.back {el : Id → LruEl} : ∀ {l : List Id}, Seg el none l none → Chain (fun i => (el i).prev) l.getLast? l.reverse := by
  suffices ∀ (l : List Id) (n : Option Id), Seg el none l n → Chain (fun i => (el i).prev) l.getLast? l.reverse from fun {_} h => this _ _ h
  intro l
  induction l using List.reverseRecOn with
  | nil => intro _ _; rfl
  | append_singleton a x ih =>
    intro n h
    rw [seg_append] at h
    rw [List.reverse_append, List.getLast?_append]
    refine ⟨by simp, ?_⟩
    have := ih _ h.1
    have e : (el x).prev = a.getLast? := by simpa using h.2.1
    simp only [e]
    exact this

/-- Occupancy of all below the root node. -/
def Pt.Below (min max : Nat) : {h : Nat} → Pt K V h → Prop
  | 0, _ => True
  | h + 1, r => ∀ c ∈ (@id (Row K (Pt K V h)) r).kids, Pt.Occ min max c

theorem Pt.Occ.split {mn mx : Nat} {p : Pt K V h} (ho : p.Occ mn mx) : mn ≤ p.width ∧ p.width ≤ mx ∧ p.Below mn mx := by
  cases h with
  | zero => exact ⟨ho.1, ho.2, trivial⟩
  | succ h => exact ⟨ho.1.1, ho.1.2, ho.2⟩

theorem Pt.RootOcc.split {mn mx : Nat} {p : Pt K V h} (ho : p.RootOcc mn mx) : (if h = 0 then 0 else 1) ≤ p.width ∧ p.width ≤ mx ∧ p.Below mn mx := by
  cases h with
  | zero => exact ⟨by simp, ho, trivial⟩
  | succ h => exact ⟨by rw [if_neg (by omega)]; exact ho.1.1, ho.1.2, ho.2⟩

theorem Dt.onDisk {f : Ref → Option (DiskNode K V)} {max : Nat} : ∀ {h : Nat} {lo : Nat} {b : Bool} (d : Dt K V h), (∀ p ∈ d.pages P b, f p.1 = some p.2) →
    lo ≤ d.erase.width → d.erase.width ≤ max → d.erase.Below (max / 2) max → OnDisk f max lo d.ref h
  | 0, lo, b, d, hp, h1, h2, _ => by
      obtain ⟨ref, l, rfl⟩ := d.cases0
      exact .leaf (hp _ (Dt.page P b _)) rfl h1 h2
  | h + 1, lo, b, d, hp, h1, h2, h3 => by
      obtain ⟨ref, r, rfl⟩ := d.casesS
      have hk : ∀ c ∈ r.kids, OnDisk f max (max / 2) c.ref h := fun c hc => by
        obtain ⟨k1, k2, k3⟩ := Pt.Occ.split (h3 c.erase (by show c.erase ∈ (r.map Dt.erase).kids; rw [Row.kids_map]; exact List.mem_map_of_mem hc))
        exact c.onDisk (b := false) (fun p hp' => hp p (Dt.kidPages hc hp')) k1 k2 k3
      refine .inner (hp _ (Dt.page P b _)) (Dt.body_inner ref r) ?_ ?_ ?_ ?_
      · simpa using h1
      · simpa using h2
      · exact hk r.c0 (by simp [Row.kids])
      · intro p hp
        simp only [Row.map, List.mem_map] at hp
        obtain ⟨_, ⟨q, hq, rfl⟩, rfl⟩ := hp
        exact hk q.2 (by simp only [Row.kids, List.mem_cons, List.mem_map]; exact .inr ⟨q, hq, rfl⟩)

theorem mem_cellsB {i : Id} {L : List (Gt K V h)} {c : Cell K V} : c ∈ (kidsB P i L).1 ↔ ∃ t ∈ L, c ∈ (bun P (.child i) t).1 := by
  induction L with
  | nil => simp
  | cons t L ih => simp [ih]

theorem bun_inner_1 (q : Pos) (i : Id) (st : Option Ref) (r : Row K (Gt K V h)) : (bun P q (.inner i st r)).1 =
    mkCell P q i st (r.map Gt.kid).body ::ₘ (kidsB P i r.kids).1 := by
  rw [bun_inner, innerB]
  cases st <;> simp [cellB, lruB, pageB, kidsB]

theorem bun_leaf_1 (q : Pos) (i : Id) (st : Option Ref) (l : List (K × V)) : (bun P q (.leaf i st l)).1 = {mkCell P q i st (.leaf l.length l)} := by
  rw [bun_leaf, leafB]
  cases st <;> simp [cellB, lruB, pageB]

theorem bun_unl_1 (q : Pos) (i : Id) (d : Dt K V h) : (bun P q (.unl i d)).1 = {mkCell P q i (some d.ref) (.unl d.cnt)} := by
  rw [bun_unl]
  simp [cellB, offB, pagesB]

theorem InMem.of {max : Nat} : ∀ {h : Nat} {lo : Nat} {q : Pos} (t : Gt K V h), t.odds = 0 → (∀ c ∈ (bun P q t).1, CellOK w c) → (∀ p ∈ (bun P q t).2.2.1, w.disk p.1 = some p.2) →
    lo ≤ t.erase.width → t.erase.width ≤ max → t.erase.Below (max / 2) max → InMem w max lo t.id h
  | 0, lo, q, t, hz, hc, hp, h1, h2, _ => by
      rcases t.cases0 with ⟨i, d, rfl⟩ | ⟨i, st, l, rfl⟩ | ⟨i, o, l, rfl⟩
      · have := hc (mkCell P q i (some d.ref) (.unl d.cnt)) (by rw [bun_unl_1]; exact Multiset.mem_singleton_self _)
        rw [erase_unl] at h1 h2
        refine .unl this.body.1 ?_
        rw [show (w.node (Gt.unl i d).id).ref = d.ref from this.ref]
        exact d.onDisk (fun p hp' => hp p (by rw [bun_unl]; simpa [cellB, offB] using hp')) h1 h2 trivial
      · have := hc (mkCell P q i st (.leaf l.length l)) (by rw [bun_leaf_1]; exact Multiset.mem_singleton_self _)
        obtain ⟨b1, b2, -, T, b3, -, b4⟩ := this.body
        refine .leaf b1 b2 b3 ?_ ?_ ?_
        · rw [b4, leafKv_length]; simpa using h1
        · rw [b4, leafKv_length]; simpa using h2
        · rw [b4]
          intro p hp
          obtain ⟨x, -, rfl⟩ := List.mem_map.1 hp
          exact ⟨_, rfl⟩
      · simp at hz
  | h + 1, lo, q, t, hz, hc, hp, h1, h2, h3 => by
      rcases t.casesS with ⟨i, d, rfl⟩ | ⟨i, st, r, rfl⟩ | ⟨i, o, r, rfl⟩
      · have := hc (mkCell P q i (some d.ref) (.unl d.cnt)) (by rw [bun_unl_1]; exact Multiset.mem_singleton_self _)
        rw [erase_unl] at h1 h2 h3
        refine .unl this.body.1 ?_
        rw [show (w.node (Gt.unl i d).id).ref = d.ref from this.ref]
        exact d.onDisk (fun p hp' => hp p (by rw [bun_unl]; simpa [cellB, offB] using hp')) h1 h2 h3
      · have := hc (mkCell P q i st (r.map Gt.kid).body) (by rw [bun_inner_1]; exact Multiset.mem_cons_self _ _)
        obtain ⟨b1, b2, -, b5, ⟨T, b3, -, b4⟩, -⟩ := this.body
        have hk : ∀ c ∈ r.kids, InMem w max (max / 2) c.id h := fun c hcm => by
          obtain ⟨k1, k2, k3⟩ := Pt.Occ.split (h3 c.erase (by show c.erase ∈ (r.map Gt.erase).kids; rw [Row.kids_map]; exact List.mem_map_of_mem hcm))
          refine InMem.of (q := .child i) c (odds_kid hz hcm) (fun x hx => hc x ?_) (fun p hp' => hp p ?_) k1 k2 k3
          · rw [bun_inner_1]; exact Multiset.mem_cons_of_mem (mem_cellsB.2 ⟨c, hcm, hx⟩)
          · exact Multiset.mem_add.2 (.inr (mem_kidsB.2 ⟨c, hcm, hp'⟩))
        refine .inner b1 b2 b5 b3 ?_ ?_ (hk r.c0 (by simp [Row.kids])) ?_ ?_
        · rw [b4, innerKv_length]; simpa using h1
        · rw [b4, innerKv_length]; simpa using h2
        · rw [b4]
          intro p hp
          obtain ⟨x, -, rfl⟩ := List.mem_map.1 hp
          exact ⟨_, rfl⟩
        · rw [b4]
          intro k c hkc
          obtain ⟨x, hx, e⟩ := List.mem_map.1 hkc
          simp only [Row.map_cs, List.map_map, List.mem_map, Function.comp_apply] at hx
          obtain ⟨y, hy, rfl⟩ := hx
          simp only [Prod.mk.injEq, Val.node.injEq] at e
          rw [← e.2]
          exact hk y.2 (by simp only [Row.kids, List.mem_cons, List.mem_map]; exact .inr ⟨y, hy, rfl⟩)
      · simp [odds_odInner] at hz

theorem bun_cell (q : Pos) (t : Gt K V h) (hz : t.odds = 0) : ∃ c ∈ (bun P q t).1, c.id = t.id := by
  cases h with
  | zero =>
    rcases t.cases0 with ⟨i, d, rfl⟩ | ⟨i, st, l, rfl⟩ | ⟨i, o, l, rfl⟩
    · exact ⟨_, by rw [bun_unl_1]; exact Multiset.mem_singleton_self _, rfl⟩
    · exact ⟨_, by rw [bun_leaf_1]; exact Multiset.mem_singleton_self _, rfl⟩
    · simp at hz
  | succ h =>
    rcases t.casesS with ⟨i, d, rfl⟩ | ⟨i, st, r, rfl⟩ | ⟨i, o, r, rfl⟩
    · exact ⟨_, by rw [bun_unl_1]; exact Multiset.mem_singleton_self _, rfl⟩
    · exact ⟨_, by rw [bun_inner_1]; exact Multiset.mem_cons_self _ _, rfl⟩
    · simp [odds_odInner] at hz

/-- The children of cells are cells. -/
theorem bun_kids : ∀ {h : Nat} {q : Pos} (t : Gt K V h), t.odds = 0 → ∀ c ∈ (bun P q t).1, ∀ i ∈ c.body.kids, ∃ c' ∈ (bun P q t).1, c'.id = i
  | 0, q, t, hz, c, hc, i, hi => by
      rcases t.cases0 with ⟨j, d, rfl⟩ | ⟨j, st, l, rfl⟩ | ⟨j, o, l, rfl⟩
      · rw [bun_unl_1, Multiset.mem_singleton] at hc; subst hc; cases hi
      · rw [bun_leaf_1, Multiset.mem_singleton] at hc; subst hc; cases hi
      · simp at hz
  | h + 1, q, t, hz, c, hc, i, hi => by
      rcases t.casesS with ⟨j, d, rfl⟩ | ⟨j, st, r, rfl⟩ | ⟨j, o, r, rfl⟩
      · rw [bun_unl_1, Multiset.mem_singleton] at hc; subst hc; cases hi
      · rw [bun_inner_1] at hc ⊢
        rcases Multiset.mem_cons.1 hc with rfl | hc
        · have : ∃ t ∈ r.kids, t.id = i := by
            simp only [mkCell, Row.body, Body.kids, Row.map_c0, Row.map_cs, List.map_map, List.mem_cons, List.mem_map, Function.comp_apply, Gt.kid] at hi
            rcases hi with rfl | ⟨p, hp, rfl⟩
            · exact ⟨r.c0, by simp [Row.kids], rfl⟩
            · exact ⟨p.2, by simp only [Row.kids, List.mem_cons, List.mem_map]; exact .inr ⟨p, hp, rfl⟩, rfl⟩
          obtain ⟨t, ht, rfl⟩ := this
          obtain ⟨c', h1, h2⟩ := bun_cell (P := P) (.child j) t (odds_kid hz ht)
          exact ⟨c', Multiset.mem_cons_of_mem (mem_cellsB.2 ⟨t, ht, h1⟩), h2⟩
        · obtain ⟨t, ht, hc⟩ := mem_cellsB.1 hc
          obtain ⟨c', h1, h2⟩ := bun_kids t (odds_kid hz ht) c hc i hi
          exact ⟨c', Multiset.mem_cons_of_mem (mem_cellsB.2 ⟨t, ht, h1⟩), h2⟩
      · simp [odds_odInner] at hz

/-- The cache entry of a cell. -/
def Cell.entry (ca : Bool) (c : Cell K V) : Id × Option Bool :=
  (c.id, match c.body with | .unl _ => none | _ => if ca then some c.dirty else none)

theorem bun_entries : ∀ {h : Nat} {q : Pos} (t : Gt K V h), t.odds = 0 → (bun P q t).2.1 = (bun P q t).1.map (Cell.entry P.ca)
  | 0, q, t, hz => by
      rcases t.cases0 with ⟨j, d, rfl⟩ | ⟨j, st, l, rfl⟩ | ⟨j, o, l, rfl⟩
      · rw [bun_unl_1, bun_unl]; simp [cellB, offB, pagesB, Cell.entry, mkCell]
      · rw [bun_leaf_1, bun_leaf, leafB]; cases st <;> simp [cellB, lruB, pageB, Cell.entry, mkCell]
      · simp at hz
  | h + 1, q, t, hz => by
      rcases t.casesS with ⟨j, d, rfl⟩ | ⟨j, st, r, rfl⟩ | ⟨j, o, r, rfl⟩
      · rw [bun_unl_1, bun_unl]; simp [cellB, offB, pagesB, Cell.entry, mkCell]
      · have hk : ∀ L : List (Gt K V h), (∀ c ∈ L, c ∈ r.kids) → (kidsB P j L).2.1 = (kidsB P j L).1.map (Cell.entry P.ca) := by
          intro L
          induction L with
          | nil => intro _; simp
          | cons c L ih =>
            intro hL
            simp only [kidsB_cons, Prod.snd_add, Prod.fst_add, Multiset.map_add]
            rw [ih fun c hc => hL c (by simp [hc]), bun_entries c (odds_kid hz (hL c (by simp)))]
        have : (bun P q (.inner j st r)).2.1 = Cell.entry P.ca (mkCell (V := V) P q j st (r.map Gt.kid).body) ::ₘ (kidsB P j r.kids).2.1 := by
          rw [bun_inner, innerB]
          cases st <;> simp [cellB, lruB, pageB, kidsB, Cell.entry, mkCell, Row.body]
        rw [this, bun_inner_1, Multiset.map_cons, hk _ fun c hc => hc]
      · simp [odds_odInner] at hz

/-- Between operations no cell is raw. -/
theorem bun_raw : ∀ {h : Nat} {q : Pos} (t : Gt K V h), t.odds = 0 → ∀ c ∈ (bun P q t).1, ∀ {a b d e l}, c.body ≠ .raw a b d e l
  | 0, q, t, hz, c, hc, _, _, _, _, _ => by
      rcases t.cases0 with ⟨j, d, rfl⟩ | ⟨j, st, l, rfl⟩ | ⟨j, o, l, rfl⟩
      · rw [bun_unl_1, Multiset.mem_singleton] at hc; subst hc; simp [mkCell]
      · rw [bun_leaf_1, Multiset.mem_singleton] at hc; subst hc; simp [mkCell]
      · simp at hz
  | h + 1, q, t, hz, c, hc, _, _, _, _, _ => by
      rcases t.casesS with ⟨j, d, rfl⟩ | ⟨j, st, r, rfl⟩ | ⟨j, o, r, rfl⟩
      · rw [bun_unl_1, Multiset.mem_singleton] at hc; subst hc; simp [mkCell]
      · rw [bun_inner_1] at hc
        rcases Multiset.mem_cons.1 hc with rfl | hc
        · simp [mkCell, Row.body]
        · obtain ⟨t, ht, hc⟩ := mem_cellsB.1 hc
          exact bun_raw t (odds_kid hz ht) c hc
      · simp [odds_odInner] at hz

/-- Every cell is a node struct of the tree. -/
theorem Holds.of {τ : TreeId} : ∀ {h : Nat} {q : Pos} (t : Gt K V h), t.odds = 0 → (∀ c ∈ (bun P q t).1, CellOK w c) → Holds w τ t.id → ∀ c ∈ (bun P q t).1, Holds w τ c.id
  | 0, q, t, hz, hok, ht, c, hc => by
      rcases t.cases0 with ⟨j, d, rfl⟩ | ⟨j, st, l, rfl⟩ | ⟨j, o, l, rfl⟩
      · rw [bun_unl_1, Multiset.mem_singleton] at hc; subst hc; exact ht
      · rw [bun_leaf_1, Multiset.mem_singleton] at hc; subst hc; exact ht
      · simp at hz
  | h + 1, q, t, hz, hok, ht, c, hc => by
      rcases t.casesS with ⟨j, d, rfl⟩ | ⟨j, st, r, rfl⟩ | ⟨j, o, r, rfl⟩
      · rw [bun_unl_1, Multiset.mem_singleton] at hc; subst hc; exact ht
      · rw [bun_inner_1] at hc hok
        rcases Multiset.mem_cons.1 hc with rfl | hc
        · exact ht
        · obtain ⟨t, htm, hc⟩ := mem_cellsB.1 hc
          refine Holds.of t (odds_kid hz htm) (fun x hx => hok x (Multiset.mem_cons_of_mem (mem_cellsB.2 ⟨t, htm, hx⟩))) ?_ c hc
          obtain ⟨b1, b2, -, b5, ⟨T, b3, -, b4⟩, -⟩ := (hok _ (Multiset.mem_cons_self _ _)).body
          simp only [Row.kids, List.mem_cons, List.mem_map] at htm
          rcases htm with rfl | ⟨p, hp, rfl⟩
          · exact .left ht b1 b2 b5
          · refine .kid (k := p.1) ht b1 b2 b3 ?_
            rw [b4]
            simp only [innerKv, Row.map_cs, List.map_map, List.mem_map, Function.comp_apply]
            exact ⟨p, hp, rfl⟩
      · simp [odds_odInner] at hz

/-- The node structs of a tree are its cells. -/
theorem holds_iff {τ : TreeId} {q : Pos} {t : Gt K V h} (hz : t.odds = 0) (hok : ∀ c ∈ (bun P q t).1, CellOK w c) (hr : (w.trees τ).root = some t.id) {i : Id} :
    Holds w τ i ↔ ∃ c ∈ (bun P q t).1, c.id = i := by
  constructor
  · intro hi
    induction hi with
    | @root i hi =>
      rw [hr, Option.some.injEq] at hi
      subst hi
      exact bun_cell q t hz
    | @left i k _ hl hle hk ih =>
      obtain ⟨c, hc, rfl⟩ := ih
      refine bun_kids t hz c hc _ ?_
      have hb := (hok c hc).body
      cases hbc : c.body with
      | unl n => rw [hbc] at hb; rw [hb.1] at hl; cases hl
      | leaf n l => rw [hbc] at hb; rw [hb.2.1] at hle; cases hle
      | raw => exact absurd hbc (bun_raw t hz c hc)
      | inner n c0 cs ps =>
        rw [hbc] at hb
        obtain ⟨-, -, -, b5, -⟩ := hb
        rw [hk, Option.some.injEq] at b5
        simp [Body.kids, b5]
    | @kid i k T key _ hl hle hT hm ih =>
      obtain ⟨c, hc, rfl⟩ := ih
      refine bun_kids t hz c hc _ ?_
      have hb := (hok c hc).body
      cases hbc : c.body with
      | unl n => rw [hbc] at hb; rw [hb.1] at hl; cases hl
      | leaf n l => rw [hbc] at hb; rw [hb.2.1] at hle; cases hle
      | raw => exact absurd hbc (bun_raw t hz c hc)
      | inner n c0 cs ps =>
        rw [hbc] at hb
        obtain ⟨-, -, -, -, ⟨T', b3, -, b4⟩, -⟩ := hb
        rw [hT, Option.some.injEq] at b3
        subst b3
        rw [b4] at hm
        obtain ⟨x, hx, e⟩ := List.mem_map.1 hm
        simp only [Prod.mk.injEq, Val.node.injEq] at e
        simp only [Body.kids, List.mem_cons, List.mem_map]
        exact .inr ⟨x, hx, e.2⟩
  · rintro ⟨c, hc, rfl⟩
    exact Holds.of t hz hok (.root hr) c hc

/-! ### The whole state -/

variable {cfg : TreeId → Par K} {n : Nat} {s : Api.St K V} {L a b : List (Ent K V)} {LK : Multiset (Ref × DiskNode K V)} {e : Ent K V} {t : TreeId} {m : Api.Map K V}

theorem whole_1 : ∀ (L : List (Ent K V)), (whole L).1 = (L.map fun e => (bun e.P ⟨none, true⟩ e.g).1).sum
  | [] => rfl
  | e :: L => by rw [whole_cons, Prod.fst_add, whole_1 L]; simp [Ent.F]

theorem whole_2 : ∀ (L : List (Ent K V)), (whole L).2.1 = (L.map fun e => (bun e.P ⟨none, true⟩ e.g).2.1).sum
  | [] => rfl
  | e :: L => by rw [whole_cons, Prod.snd_add, Prod.fst_add, whole_2 L]; simp [Ent.F]

theorem Scene.cells (h : Scene w L LK) (he : e ∈ L) : ∀ c ∈ (bun e.P ⟨none, true⟩ e.g).1, CellOK w c := fun c hc =>
  h.heap.st.cell c (by
    rw [Prod.fst_add, whole_1]
    exact Multiset.mem_add.2 (.inl (mem_listSum.2 ⟨e, he, hc⟩)))

theorem Scene.balanced (h : Scene w L LK) (he : e ∈ L) : Balanced w e.P.τ e.P.max e.H := by
  have ho := h.ok e he
  obtain ⟨h1, h2, h3⟩ := ho.occ.split
  refine ⟨_, ho.root, InMem.of e.g ho.odds (h.cells he) (fun p hp => ?_) h1 h2 h3⟩
  refine (h.heap.disk p ?_).1
  rw [Prod.snd_add, Prod.snd_add, Prod.fst_add, whole_pages]
  exact Multiset.mem_add.2 (.inl (mem_listSum.2 ⟨e, he, Multiset.mem_add.2 (.inl hp)⟩))

/-- A node struct of a tree, in memory. -/
theorem Scene.entry (h : Scene w L LK) (he : e ∈ L) {i : Id} {d : Bool} : (i, some d) ∈ (bun e.P ⟨none, true⟩ e.g).2.1 ↔
    e.P.ca = true ∧ Holds w e.P.τ i ∧ (w.node i).loaded = true ∧ (w.node i).dirty = d := by
  have ho := h.ok e he
  rw [bun_entries e.g ho.odds, Multiset.mem_map]
  constructor
  · rintro ⟨c, hc, hec⟩
    have hok := h.cells he c hc
    simp only [Cell.entry, Prod.mk.injEq] at hec
    obtain ⟨rfl, hec⟩ := hec
    have hl : (w.node c.id).loaded = true ∧ (if e.P.ca then some c.dirty else none) = some d := by
      have hb := hok.body
      cases hbc : c.body with
      | unl n => rw [hbc] at hec; cases hec
      | leaf n l => rw [hbc] at hb hec; exact ⟨hb.1, hec⟩
      | inner n c0 cs ps => rw [hbc] at hb hec; exact ⟨hb.1, hec⟩
      | raw => exact absurd hbc (bun_raw e.g ho.odds c hc)
    have hca : e.P.ca = true := by
      by_contra hca
      rw [if_neg hca] at hl
      cases hl.2
    rw [if_pos hca, Option.some.injEq] at hl
    exact ⟨hca, (holds_iff ho.odds (h.cells he) ho.root).2 ⟨c, hc, rfl⟩, hl.1, hok.dirty.trans hl.2⟩
  · rintro ⟨hca, hh, hl, hd⟩
    obtain ⟨c, hc, rfl⟩ := (holds_iff ho.odds (h.cells he) ho.root).1 hh
    refine ⟨c, hc, ?_⟩
    have hok := h.cells he c hc
    have hb := hok.body
    rw [← hd, hok.dirty]
    simp only [Cell.entry, Prod.mk.injEq, true_and]
    cases hbc : c.body with
    | unl n => rw [hbc] at hb; rw [hb.1] at hl; cases hl
    | leaf n l => simp [hca]
    | inner n c0 cs ps => simp [hca]
    | raw => exact absurd hbc (bun_raw e.g ho.odds c hc)

/-- What the two lists hold. -/
theorem Scene.lists (h : Scene w L LK) : ∃ l : Bool → List Id, LruS.WF w.lru l ∧
    ∀ d i, i ∈ l d ↔ ∃ e ∈ L, e.P.ca = true ∧ Holds w e.P.τ i ∧ (w.node i).loaded = true ∧ (w.node i).dirty = d := by
  obtain ⟨l, h1, h2⟩ := h.heap.lru.is
  refine ⟨l, h1, fun d i => ?_⟩
  have : i ∈ l d ↔ (i, d) ∈ live (whole L + pagesB LK).2.1 := by rw [h2]; cases d <;> simp
  rw [this, mem_live, Prod.snd_add, Prod.fst_add, pagesB_2, add_zero, whole_2, mem_listSum]
  constructor
  · rintro ⟨e, he, hm⟩
    exact ⟨e, he, (h.entry he).1 hm⟩
  · rintro ⟨e, he, hm⟩
    exact ⟨e, he, (h.entry he).2 hm⟩

theorem mem_kidsB_pages {i : Id} {L : List (Gt K V h)} {x : Ref × DiskNode K V} : x ∈ (kidsB P i L).2.2.1 ↔ ∃ t ∈ L, x ∈ (bun P (.child i) t).2.2.1 := by
  induction L with
  | nil => simp
  | cons t L ih => simp [ih]

/-- The nodes know their tree; and if a tree takes up no page, its nodes are all in memory and dirty. -/
theorem bun_all : ∀ {h : Nat} {q : Pos} (t : Gt K V h), t.odds = 0 → ∀ c ∈ (bun P q t).1,
    c.tree = P.τ ∧ ((bun P q t).2.2.1 = 0 → c.dirty = true ∧ ∀ n, c.body ≠ .unl n)
  | 0, q, t, hz, c, hc => by
      rcases t.cases0 with ⟨j, d, rfl⟩ | ⟨j, st, l, rfl⟩ | ⟨j, o, l, rfl⟩
      · rw [bun_unl_1, Multiset.mem_singleton] at hc; subst hc
        refine ⟨rfl, fun h => ?_⟩
        rw [bun_unl] at h
        have := Dt.page P q.root d
        simp [cellB, offB, pagesB] at h
        rw [h] at this
        simp at this
      · rw [bun_leaf_1, Multiset.mem_singleton] at hc; subst hc
        refine ⟨rfl, fun h => ?_⟩
        rw [bun_leaf, leafB] at h
        cases st with
        | none => simp [mkCell]
        | some x => simp [cellB, lruB, pageB] at h
      · simp at hz
  | h + 1, q, t, hz, c, hc => by
      rcases t.casesS with ⟨j, d, rfl⟩ | ⟨j, st, r, rfl⟩ | ⟨j, o, r, rfl⟩
      · rw [bun_unl_1, Multiset.mem_singleton] at hc; subst hc
        refine ⟨rfl, fun h => ?_⟩
        rw [bun_unl] at h
        have := Dt.page P q.root d
        simp [cellB, offB, pagesB] at h
        rw [h] at this
        simp at this
      · have hk := hz
        rw [bun_inner_1, Multiset.mem_cons] at hc
        have hp : (bun P q (.inner j st r)).2.2.1 = 0 → st = none ∧ (kidsB P j r.kids).2.2.1 = 0 := fun h => by
          rw [bun_inner, innerB] at h
          cases st with
          | none => exact ⟨rfl, by simpa [cellB, lruB, kidsB] using h⟩
          | some x => simp [cellB, lruB, pageB] at h
        rcases hc with rfl | hc
        · refine ⟨rfl, fun h => ?_⟩
          obtain ⟨rfl, -⟩ := hp h
          exact ⟨rfl, fun n => by simp [mkCell, Row.body]⟩
        · obtain ⟨k, hk1, hk2⟩ := mem_cellsB.1 hc
          have := bun_all k (odds_kid hz hk1) c hk2
          refine ⟨this.1, fun h => this.2 ?_⟩
          refine Multiset.eq_zero_of_forall_notMem fun x hx => ?_
          have : x ∈ (kidsB P j r.kids).2.2.1 := mem_kidsB_pages.2 ⟨k, hk1, hx⟩
          rw [(hp h).2] at this
          simp at this
      · simp [odds_odInner] at hz

/-- A node of a tree. -/
theorem Scene.node (h : Scene w L LK) (he : e ∈ L) {i : Id} (hi : Holds w e.P.τ i) : (w.node i).tree = e.P.τ ∧ (e.pages = 0 → (w.node i).loaded = true ∧ (w.node i).dirty = true) := by
  have ho := h.ok e he
  obtain ⟨c, hc, rfl⟩ := (holds_iff ho.odds (h.cells he) ho.root).1 hi
  have hok := h.cells he c hc
  obtain ⟨h1, h2⟩ := bun_all e.g ho.odds c hc
  refine ⟨hok.tree.trans h1, fun hp => ?_⟩
  obtain ⟨h3, h4⟩ := h2 hp
  have hb := hok.body
  refine ⟨?_, hok.dirty.trans h3⟩
  cases hbc : c.body with
  | unl n => exact absurd hbc (h4 n)
  | leaf n l => rw [hbc] at hb; exact hb.1
  | inner n c0 cs ps => rw [hbc] at hb; exact hb.1
  | raw => exact absurd hbc (bun_raw e.g ho.odds c hc)

theorem OnDisk.unique {disk : Ref → Option (DiskNode K V)} {max lo lo' h h' : Nat} {r : Ref} (a : OnDisk disk max lo r h) (b : OnDisk disk max lo' r h') : h = h' := by
  induction a generalizing lo' h' with
  | leaf a1 a2 =>
    cases b with
    | leaf => rfl
    | inner b1 b2 => rw [a1] at b1; cases b1; rw [a2] at b2; cases b2
  | inner a1 a2 _ _ _ _ ih =>
    cases b with
    | leaf b1 b2 => rw [a1] at b1; cases b1; rw [a2] at b2; cases b2
    | inner b1 b2 _ _ b3 => rw [a1] at b1; cases b1; rw [a2] at b2; cases b2; rw [ih b3]

theorem InMem.unique {w : World K V} {max lo lo' h h' : Nat} {i : Id} (a : InMem w max lo i h) (b : InMem w max lo' i h') : h = h' := by
  induction a generalizing lo' h' with
  | unl a1 a2 =>
    cases b with
    | unl b1 b2 => exact a2.unique b2
    | leaf b1 => rw [a1] at b1; cases b1
    | inner b1 => rw [a1] at b1; cases b1
  | leaf a1 a2 =>
    cases b with
    | unl b1 b2 => rw [a1] at b1; cases b1
    | leaf b1 => rfl
    | inner b1 b2 => rw [a2] at b2; cases b2
  | inner a1 a2 a3 _ _ _ _ _ _ ih =>
    cases b with
    | unl b1 b2 => rw [a1] at b1; cases b1
    | leaf b1 b2 => rw [a2] at b2; cases b2
    | inner b1 b2 b3 _ _ _ b4 => rw [a3] at b3; cases b3; rw [ih b4]

/-- A tree has one height. -/
theorem Balanced.unique {w : World K V} {t : TreeId} {max h h' : Nat} (a : Balanced w t max h) (b : Balanced w t max h') : h = h' := by
  obtain ⟨r, a1, a2⟩ := a
  obtain ⟨r', b1, b2⟩ := b
  rw [a1] at b1
  cases b1
  exact a2.unique b2

end
end SM.BT

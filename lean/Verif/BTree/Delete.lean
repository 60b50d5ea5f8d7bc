import Verif.BTree.Insert

/-! Deletion: nodes that have become too short borrow from a sibling or are merged with one, up to the root. -/

namespace SM.BT

open Spec (at? below above find has rejects Agrees AgreesE Refused stepE Op Ans)

variable {K V : Type}

/-- A node with `n` entries, the occupancy of whose children is right. -/
def Pt.Weak (min max n : Nat) : {h : Nat} → Pt K V h → Prop
  | 0, l => (@id (List (K × V)) l).length = n
  | h + 1, r => (@id (Row K (Pt K V h)) r).cs.length = n ∧ ∀ c ∈ (@id (Row K (Pt K V h)) r).kids, Pt.Occ min max c

/-- A loaded node with changed contents whose entry in the cache lists and page are still the old ones. -/
def Odd.old (ca : Bool) (st : Option Ref) (e : DiskNode K V) : Odd K V :=
  ⟨refOf st, st.isNone, if ca then some st.isNone else none, (ownPage st e).2.2.1⟩

section
variable {P : Par K} {h H : Nat} {w0 : World K V} {T : Tot K V} {w : World K V} {ρ : Option Id} {R : B K V}

theorem weak_leaf (min max n : Nat) (l : List (K × V)) : (Pt.leaf l).Weak min max n ↔ l.length = n := Iff.rfl
theorem weak_inner (min max n : Nat) (r : Row K (Pt K V h)) : (Pt.inner r).Weak min max n ↔ r.cs.length = n ∧ ∀ c ∈ r.kids, c.Occ min max := Iff.rfl

theorem Pt.Weak.occ {min max n : Nat} : ∀ {h : Nat} {p : Pt K V h}, p.Weak min max n → min ≤ n → n ≤ max → p.Occ min max
  | 0, p, hp, h1, h2 => by obtain ⟨l, e⟩ := p.cases0; rw [e] at hp ⊢; rw [weak_leaf] at hp; rw [occ_leaf]; omega
  | h + 1, p, hp, h1, h2 => by
      obtain ⟨r, e⟩ := p.casesS; rw [e] at hp ⊢; rw [weak_inner] at hp; rw [occ_inner]; exact ⟨by omega, hp.2⟩

theorem Pt.Occ.weak {min max : Nat} : ∀ {h : Nat} {p : Pt K V h}, p.Occ min max → ∃ n, p.Weak min max n ∧ min ≤ n ∧ n ≤ max
  | 0, p, hp => by obtain ⟨l, e⟩ := p.cases0; rw [e] at hp ⊢; exact ⟨_, rfl, hp⟩
  | h + 1, p, hp => by obtain ⟨r, e⟩ := p.casesS; rw [e] at hp ⊢; exact ⟨_, ⟨rfl, hp.2⟩, hp.1⟩

theorem Pt.Weak.rootOcc {min max n : Nat} : ∀ {h : Nat} {p : Pt K V h}, p.Weak min max n → h = 0 ∨ 1 ≤ n → n ≤ max → p.RootOcc min max
  | 0, p, hp, h1, h2 => by obtain ⟨l, e⟩ := p.cases0; rw [e] at hp ⊢; rw [weak_leaf] at hp; rw [rootOcc_leaf]; omega
  | h + 1, p, hp, h1, h2 => by
      obtain ⟨r, e⟩ := p.casesS; rw [e] at hp ⊢; rw [weak_inner] at hp; rw [rootOcc_inner]; exact ⟨by omega, hp.2⟩

theorem old_B (x : Id) (st : Option Ref) (e : DiskNode K V) :
    ((0, {(x, (Odd.old P.ca st e).entry)}, 0, 0) : B K V) + pagesB (Odd.old P.ca st e).pages = lruB P.ca x st.isNone + ownPage st e := by
  cases st <;> simp [Odd.old, lruB, ownPage, pagesB, pageB]

theorem oddB_old (q : Pos) (x : Id) (st : Option Ref) (e : DiskNode K V) (b : Body K V) :
    oddB P q x (.old P.ca st e) b = cellB (mkCell P q x st b) + lruB P.ca x st.isNone + ownPage st e := by
  rw [oddB, add_assoc, old_B, add_assoc]; rfl

theorem bun_old_leaf (q : Pos) (x : Id) (st : Option Ref) (e : DiskNode K V) (l : List (K × V)) :
    bun P q (.odLeaf x (.old P.ca st e) l) = cellB (mkCell P q x st (.leaf l.length l)) + lruB P.ca x st.isNone + ownPage st e := by
  rw [bun_odLeaf, oddB_old]

theorem bun_old_inner (q : Pos) (x : Id) (st : Option Ref) (e : DiskNode K V) (r : Row K (Gt K V h)) :
    bun P q (.odInner x (.old P.ca st e) r) = cellB (mkCell P q x st (r.map Gt.kid).body) + lruB P.ca x st.isNone + ownPage st e + kidsB P x r.kids := by
  rw [bun_odInner, oddB_old]; rfl

/-- Marking such a node dirty. -/
theorem I.calmOld {q : Pos} {t : Gt K V h} {x : Id} {st : Option Ref} {e : DiskNode K V} (ht : t.Is x (some (.old P.ca st e)))
    (hI : I P w0 T w ρ (bun P q t + R)) : ∃ w', markNodeDirty P.τ x w = (.ok (), w') ∧ I P w0 T w' ρ (bun P q t.calm + R) := by
  rcases ht.odd with ⟨rfl, l, rfl⟩ | ⟨n, rfl, r, rfl⟩
  · simp only at hI ⊢
    rw [bun_old_leaf] at hI
    obtain ⟨w', e1, h1⟩ := hI.markDirty (c := mkCell P q x st (.leaf l.length l)) rfl
    refine ⟨w', e1, h1.eq ?_⟩
    rw [calm_leaf, bun_leaf, leafB, ownPage_none, add_zero]
    rfl
  · simp only at hI ⊢
    rw [bun_old_inner, add_assoc] at hI
    obtain ⟨w', e1, h1⟩ := hI.markDirty (c := mkCell P q x st (r.map Gt.kid).body) rfl
    refine ⟨w', e1, h1.eq ?_⟩
    rw [calm_inner, bun_inner, innerB, ownPage_none, add_zero, ← add_assoc]
    rfl

theorem arrangeIgnore_ok {i : Id} {w' : World K V} (h : arrangePrefixSumTree i w = (.ok (), w')) : arrangeIgnore i w = (.ok (), w') := by
  simp only [arrangeIgnore, bind_ok (attempt_ok h)]; rfl

/-! ### Two neighbours and their parent -/

/-- The parent's fields while its entries are being moved. -/
def rawParent (P : Par K) (q : Pos) (pp : Id) (items : Nat) (c0 : Id) (l : List (K × Val V)) : Cell K V :=
  mkCell P q pp none (.raw true items false (some c0) l)

/-- What the other children and the parent's cache entry take up. -/
def besides (P : Par K) (pp : Id) (pre : Hole K (Gt K V h)) (post : List (K × Gt K V h)) : B K V :=
  lruB P.ca pp true + kidsB P pp (Row.kidsH pre) + kidsB P pp (post.map Prod.snd)

theorem pair_ids (pre : Hole K (Gt K V h)) (L L' Rt : Gt K V h) (k k' : K) (post : List (K × Gt K V h)) (hL : L'.id = L.id) :
    (Row.plug pre L' ((k', Rt) :: post)).c0.id = (Row.plug pre L []).c0.id ∧ kvl (Row.plug pre L' ((k', Rt) :: post)).cs = kvl (Row.plug pre L []).cs ++ (k', .node Rt.id) :: kvl post := by
  rcases pre with _ | ⟨r, k⟩ <;> simp [Row.plug, hL, kvl_append]

theorem pair_kids (pp : Id) (pre : Hole K (Gt K V h)) (L Rt : Gt K V h) (k : K) (post : List (K × Gt K V h)) :
    kidsB P pp (Row.plug pre L ((k, Rt) :: post)).kids = kidsB P pp (Row.kidsH pre) + kidsB P pp (post.map Prod.snd) + bun P (Pos.child pp) L + bun P (Pos.child pp) Rt := by
  simp only [Row.kids_plug, List.map_cons, kidsB_append, kidsB_cons]; abel

/-- Opening the parent. -/
theorem open_pair {q : Pos} {pp : Id} {pre : Hole K (Gt K V h)} {L Rt : Gt K V h} {k : K} {post : List (K × Gt K V h)}
    (hI : I P w0 T w ρ (bun P q (.inner pp none (Row.plug pre L ((k, Rt) :: post))) + R)) :
    ∃ items, I P w0 T w ρ (cellB (rawParent P q pp items (Row.plug pre L []).c0.id (kvl (Row.plug pre L []).cs ++ (k, .node Rt.id) :: kvl post)) +
      (slotB (((Row.kidsH pre).map Gt.id ++ L.id :: Rt.id :: post.map fun p => p.2.id : List Id) : Multiset Id) +
      (bun P (Pos.child pp) L + (bun P (Pos.child pp) Rt + (besides P pp pre post + R))))) := by
  rw [bun_loose, loose, ownPage_none, Option.isNone_none] at hI
  have h1 := (hI.eq (by abel : _ = cellB (mkCell P q pp none (.inner ((Row.plug pre L ((k, Rt) :: post)).map Gt.kid).total (Row.plug pre L ((k, Rt) :: post)).c0.id
    ((Row.plug pre L ((k, Rt) :: post)).cs.map fun p => (p.1, p.2.id)) (some ((Row.plug pre L ((k, Rt) :: post)).kids.map fun t => (t.id, t.cnt))))) +
    (lruB P.ca pp true + kidsB P pp (Row.plug pre L ((k, Rt) :: post)).kids + R))).open rfl
  rw [kids_ids, pair_kids] at h1
  obtain ⟨e1, e2⟩ := pair_ids pre L L Rt k k post rfl
  refine ⟨((Row.plug pre L ((k, Rt) :: post)).map Gt.kid).total, h1.eq ?_⟩
  rw [← e2, ← e1, rawParent, besides]
  have e3 : (Row.plug pre L ((k, Rt) :: post)).kids.map Gt.id = (Row.kidsH pre).map Gt.id ++ L.id :: Rt.id :: post.map fun p => p.2.id := by
    simp only [Row.kids_plug, List.map_append, List.map_cons, List.map_map]; rfl
  rw [e3]
  show cellB (mkCell P q pp none (.raw true _ false (some _) (kvl _))) + _ + _ = _
  abel

/-- Closing it again. -/
theorem close_pair {q : Pos} {pp : Id} {pre : Hole K (Gt K V h)} {L L' Rt : Gt K V h} {k : K} {post : List (K × Gt K V h)} {items : Nat} (hL : L'.id = L.id)
    (hI : I P w0 T w ρ (cellB (rawParent P q pp items (Row.plug pre L []).c0.id (kvl (Row.plug pre L []).cs ++ (k, .node Rt.id) :: kvl post)) +
      (slotB (((Row.kidsH pre).map Gt.id ++ L.id :: Rt.id :: post.map fun p => p.2.id : List Id) : Multiset Id) +
      (bun P (Pos.child pp) L' + (bun P (Pos.child pp) Rt + (besides P pp pre post + R)))))) :
    ∃ w', arrangeIgnore pp w = (.ok (), w') ∧ I P w0 T w' ρ (bun P q (.inner pp none (Row.plug pre L' ((k, Rt) :: post))) + R) := by
  obtain ⟨e1, e2⟩ := pair_ids pre L L' Rt k k post hL
  have e3 : (Row.plug pre L' ((k, Rt) :: post)).kids.map Gt.id = (Row.kidsH pre).map Gt.id ++ L.id :: Rt.id :: post.map fun p => p.2.id := by
    simp only [Row.kids_plug, List.map_append, List.map_cons, List.map_map, hL]; rfl
  obtain ⟨w', h1, h2⟩ := closeArrange (r := Row.plug pre L' ((k, Rt) :: post)) (items := items) (c := mkCell P q pp none (.leaf 0 []))
    (R := lruB P.ca pp true + R) (hI.eq (by
      rw [e1, e2, e3, mkCell_id, pair_kids, besides]
      show cellB (mkCell P q pp none _) + _ = cellB (mkCell P q pp none _) + _
      abel))
  refine ⟨w', arrangeIgnore_ok h1, h2.eq ?_⟩
  rw [bun_inner, innerB, ownPage_none, add_zero, mkCell_id]
  show cellB (mkCell P q pp none _) + _ = cellB (mkCell P q pp none _) + _ + (List.map (bun P (Pos.child pp)) _).sum + _
  rw [show (List.map (bun P (Pos.child pp)) (Row.plug pre L' ((k, Rt) :: post)).kids).sum = kidsB P pp (Row.plug pre L' ((k, Rt) :: post)).kids from rfl, Option.isNone_none]
  abel

/-! ### Borrowing -/

theorem rawParent_with (q : Pos) (pp c0 c0' : Id) (items items' : Nat) (l l' : List (K × Val V)) :
    ({ rawParent P q pp items c0 l with body := .raw true items' false (some c0') l' } : Cell K V) = rawParent P q pp items' c0' l' := rfl

theorem bun_focus (q : Pos) (i : Id) (st : Option Ref) (pre : Hole K (Gt K V h)) (t : Gt K V h) (post : List (K × Gt K V h)) :
    bun P q (.inner i st (Row.plug pre t post)) = bun P (Pos.child i) t + (innerB P q i st (Ctx.row pre t.kid post) + kidsB P i (Row.kidsH pre) + kidsB P i (post.map Prod.snd)) := by
  rw [bun_inner, Ctx.row_eq, show (List.map (bun P (Pos.child i)) (Row.plug pre t post).kids).sum = kidsB P i (Row.plug pre t post).kids from rfl, Row.kids_plug, kidsB_append, kidsB_cons]
  abel

theorem Gt.Is.calm_kid {t : Gt K V h} {x : Id} {o : Odd K V} (ht : t.Is x (some o)) : t.calm.kid = t.kid := by
  obtain ⟨c1, c2, c3, c4⟩ := ht.calm
  rw [Gt.kid, Gt.kid, c1.id, ht.id, c1.st, ht.st, Gt.cnt, Gt.cnt, c2]

theorem I.calmIn {q : Pos} {i : Id} {st' : Option Ref} {pre : Hole K (Gt K V h)} {t : Gt K V h} {post : List (K × Gt K V h)} {x : Id} {st : Option Ref} {e : DiskNode K V}
    (hI : I P w0 T w ρ (bun P q (.inner i st' (Row.plug pre t post)) + R)) (ht : t.Is x (some (.old P.ca st e))) :
    ∃ w', markNodeDirty P.τ x w = (.ok (), w') ∧ I P w0 T w' ρ (bun P q (.inner i st' (Row.plug pre t.calm post)) + R) := by
  rw [bun_focus, add_assoc] at hI
  obtain ⟨w', e1, h1⟩ := hI.calmOld ht
  exact ⟨w', e1, h1.eq (by rw [bun_focus, ht.calm_kid, ← add_assoc])⟩

/-- Borrowing from a leaf on the left. -/
theorem borrowLeft_leaf {q : Pos} {pp x y : Id} {st : Option Ref} {pre : Hole K (Gt K V 0)} {k : K} {post : List (K × Gt K V 0)} {l l2 : List (K × V)} {p : K × V}
    (hv : P.Valid p.1) (hg : AllGt P.cmp p.1 l2) (hK : KeysOK P ((Row.plug pre (Gt.leaf x st (l ++ [p])) []).cs ++ (p.1, Gt.leaf y none (p :: l2)) :: post)) {n m : Int}
    (hn : n = (Row.kidsH pre).length) (hm : m = l.length + 1)
    (hI : I P w0 T w ρ (bun P q (.inner pp none (Row.plug pre (.leaf x st (l ++ [p])) ((k, .leaf y none l2) :: post))) + R)) :
    ∃ w', borrowLeft P.cmp P.τ y pp x n m w = (.ok (), w') ∧
      I P w0 T w' ρ (bun P q (.inner pp none (Row.plug pre (.leaf x none l) ((p.1, .leaf y none (p :: l2)) :: post))) + R) := by
  have hlen := length_plug pre (Gt.leaf x st (l ++ [p])) []
  obtain ⟨items, h0⟩ := open_pair hI
  set A := (Row.plug pre (Gt.leaf x st (l ++ [p])) []).cs with hA
  set c0 := (Row.plug pre (Gt.leaf x st (l ++ [p])) []).c0.id with hc0
  set S : B K V := slotB (((Row.kidsH pre).map Gt.id ++ (Gt.leaf x st (l ++ [p])).id :: (Gt.leaf y none l2).id :: post.map fun p => p.2.id : List Id) : Multiset Id) with hS
  rw [bun_leaf, bun_leaf, leafB, leafB, ownPage_none, Option.isNone_none] at h0
  set e := mkDisk P (Pos.child pp).root (l ++ [p]).length (.leaf (l ++ [p])) with he
  obtain ⟨l0, h1⟩ := (h0.eq (by abel : _ = cellB (mkCell P (Pos.child pp) x st (.leaf (l ++ [p]).length (l ++ [p]))) + (cellB (mkCell P (Pos.child pp) y none (.leaf l2.length l2)) +
    (cellB (rawParent P q pp items c0 (kvl A ++ (k, .node (Gt.leaf y none l2).id) :: kvl post)) + (S + (lruB P.ca x st.isNone + ownPage st e + lruB P.ca y true + (besides P pp pre post + R))))))).openLeaf rfl
  obtain ⟨l0', h2⟩ := (h1.eq (add_left_comm _ _ _)).openLeaf rfl
  simp only [mkCell_with] at h2
  unfold borrowLeft
  obtain ⟨w3, e3, h3⟩ := (h2.eq (add_left_comm _ _ _)).modItems (f := fun x => sub64 x 1) rfl
  rw [mkCell_id] at e3
  rw [bind_ok e3]
  obtain ⟨w4, e4, h4⟩ := (h3.eq (add_left_comm _ _ _)).modItems (f := fun x => x + 1) rfl
  rw [mkCell_id] at e4
  rw [bind_ok e4]
  simp only [mkCell_with] at h4
  have hleaf : (w4.node y).leaf = true := h4.cell.body.2.1
  simp only [getN_bind, hleaf, if_true, borrowLeftLeaf, bind_assoc_run]
  rw [sub64, if_pos (by simp), show (l ++ [p]).length - 1 = l.length by simp, leafKv_append, show leafKv [p] = [(p.1, .item p.2)] from rfl] at h4
  have hget := (h4.eq (add_left_comm _ _ _)).kvGet rfl (m - 1)
  rw [mkCell_id] at hget
  rw [bind_ok hget, at_last (leafKv l) (p.1, .item p.2) (by rw [leafKv_length]; omega)]
  simp only [must_some_bind]
  obtain ⟨w5, e5, h5⟩ := (h4.eq (add_left_comm _ _ _)).kvDel (a := leafKv l) (b := []) (n := m - 1) rfl (by rw [leafKv_length]; omega)
  rw [mkCell_id] at e5
  have e5' : kvDeleteByIndex P.cmp x (m - 1) w4 = (.ok true, w5) := e5
  rw [bind_ok e5', check_true_bind]
  rw [List.append_nil, mkCell_with] at h5
  obtain ⟨w6, e6, h6⟩ := (h5.eq (add_left_comm _ _ _)).kvPut (a := []) (b := leafKv l2) (k := p.1) rfl hv (.item p.2) (by simp [AllLt]) (allGt_leafKv hg)
  have e6' : kvPut P.cmp y p.1 (.item p.2) w5 = (.ok true, w6) := e6
  rw [bind_ok e6', check_true_bind]
  rw [mkCell_with] at h6
  set cx := mkCell P (Pos.child pp) x st (.raw true l.length true l0 (leafKv l)) with hcx
  set cy := mkCell (V := V) P (Pos.child pp) y none (.raw true (l2.length + 1) true l0' ([] ++ (p.1, .item p.2) :: leafKv l2)) with hcy
  obtain ⟨w7, e7, h7⟩ := (h6.eq (by abel : _ = cellB (rawParent P q pp items c0 (kvl A ++ (k, .node (Gt.leaf y none l2).id) :: kvl post)) + (cellB cx + (cellB cy + (S +
    (lruB P.ca x st.isNone + ownPage st e + lruB P.ca y true + (besides P pp pre post + R))))))).kvDel (a := kvl A) (b := kvl post) (n := n) rfl (by rw [kvl_length, hlen, hn]; simp)
  have e7' : kvDeleteByIndex P.cmp pp n w6 = (.ok true, w7) := e7
  rw [bind_ok e7', check_true_bind]
  obtain ⟨w8, e8, h8⟩ := h7.kvPut (a := kvl A) (b := kvl post) (k := p.1) rfl hv (.node y) hK.lt hK.gt
  have e8' : kvPut P.cmp pp p.1 (.node y) w7 = (.ok true, w8) := e8
  rw [bind_ok e8', check_true_bind]
  rw [rawParent_with] at h8
  have h9 := (h8.eq (add_left_comm _ _ _)).closeLeaf (items := l.length) (l := l) (left := l0) rfl
  have h10 := (h9.eq (by abel : _ = cellB cy + (cellB { cx with body := .leaf l.length l } + (cellB (rawParent P q pp items c0 (kvl A ++ (p.1, .node y) :: kvl post)) + (S +
    (lruB P.ca x st.isNone + ownPage st e + lruB P.ca y true + (besides P pp pre post + R))))))).closeLeaf (items := l2.length + 1) (l := p :: l2) (left := l0') rfl
  obtain ⟨w9, e9, h11⟩ := close_pair (q := q) (pp := pp) (pre := pre) (L := .leaf x st (l ++ [p])) (L' := .odLeaf x (.old P.ca st e) l) (Rt := .leaf y none (p :: l2)) (k := p.1) (post := post) (items := items) rfl
    (R := R) (h10.eq (by
      rw [bun_old_leaf, bun_leaf, leafB, ownPage_none, Option.isNone_none, hcx, hcy, mkCell_with, mkCell_with]
      show _ = cellB (rawParent P q pp items c0 (kvl A ++ (p.1, .node y) :: kvl post)) + (S + _)
      rw [List.length_cons]
      abel))
  rw [bind_ok e9]
  exact h11.calmIn ⟨rfl, rfl⟩

theorem plug_next {α : Type} (pre : Hole K α) (L Rt : α) (k : K) (post : List (K × α)) :
    Row.plug pre L ((k, Rt) :: post) = Row.plug (some (Row.plug pre L [], k)) Rt post := by
  rcases pre with _ | ⟨r, k'⟩ <;> simp [Row.plug]

/-- Borrowing from a leaf on the right. -/
theorem borrowRight_leaf {q : Pos} {pp x y : Id} {st : Option Ref} {pre : Hole K (Gt K V 0)} {k : K} {post : List (K × Gt K V 0)} {l l2 : List (K × V)} {p p' : K × V}
    (hv : P.Valid p.1) (hv' : P.Valid p'.1) (hg : AllLt P.cmp l p.1) (hK : KeysOK P ((Row.plug pre (Gt.leaf x none (l ++ [p])) []).cs ++ (p'.1, Gt.leaf y none (p' :: l2)) :: post)) {n : Int}
    (hn : n = (Row.kidsH pre).length - 1)
    (hI : I P w0 T w ρ (bun P q (.inner pp none (Row.plug pre (.leaf x none l) ((k, .leaf y st (p :: p' :: l2)) :: post))) + R)) :
    ∃ w', borrowRight P.cmp P.τ x pp y n w = (.ok (), w') ∧
      I P w0 T w' ρ (bun P q (.inner pp none (Row.plug pre (.leaf x none (l ++ [p])) ((p'.1, .leaf y none (p' :: l2)) :: post))) + R) := by
  have hlen := length_plug pre (Gt.leaf x none l) []
  have hKA : kvl (Row.plug pre (Gt.leaf x none (l ++ [p])) []).cs = kvl (Row.plug pre (Gt.leaf x none l) []).cs := by
    rcases pre with _ | ⟨r, k⟩ <;> simp [Row.plug, kvl_append]
  have hlt := hK.lt
  have hgt := hK.gt
  rw [hKA] at hlt
  obtain ⟨items, h0⟩ := open_pair hI
  set A := (Row.plug pre (Gt.leaf x none l) []).cs with hA
  set c0 := (Row.plug pre (Gt.leaf x none l) []).c0.id with hc0
  set S : B K V := slotB (((Row.kidsH pre).map Gt.id ++ (Gt.leaf x none l).id :: (Gt.leaf y st (p :: p' :: l2)).id :: post.map fun p => p.2.id : List Id) : Multiset Id) with hS
  rw [bun_leaf, bun_leaf, leafB, leafB, ownPage_none, Option.isNone_none] at h0
  set e := mkDisk P (Pos.child pp).root (p :: p' :: l2).length (.leaf (p :: p' :: l2)) with he
  obtain ⟨l0, h1⟩ := (h0.eq (by abel : _ = cellB (mkCell P (Pos.child pp) x none (.leaf l.length l)) + (cellB (mkCell P (Pos.child pp) y st (.leaf (p :: p' :: l2).length (p :: p' :: l2))) +
    (cellB (rawParent P q pp items c0 (kvl A ++ (k, .node (Gt.leaf y st (p :: p' :: l2)).id) :: kvl post)) + (S + (lruB P.ca y st.isNone + ownPage st e + lruB P.ca x true + (besides P pp pre post + R))))))).openLeaf rfl
  obtain ⟨l0', h2⟩ := (h1.eq (add_left_comm _ _ _)).openLeaf rfl
  simp only [mkCell_with] at h2
  unfold borrowRight
  obtain ⟨w3, e3, h3⟩ := (h2.eq (add_left_comm _ _ _)).modItems (f := fun x => x + 1) rfl
  rw [mkCell_id] at e3
  rw [bind_ok e3]
  obtain ⟨w4, e4, h4⟩ := (h3.eq (add_left_comm _ _ _)).modItems (f := fun x => sub64 x 1) rfl
  rw [mkCell_id] at e4
  rw [bind_ok e4]
  simp only [mkCell_with] at h4
  have hleaf : (w4.node x).leaf = true := (h4.eq (add_left_comm _ _ _)).cell.body.2.1
  simp only [getN_bind, hleaf, if_true, borrowRightLeaf, bind_assoc_run]
  rw [sub64, if_pos (by simp), show (p :: p' :: l2).length - 1 = (p' :: l2).length by simp, show leafKv (p :: p' :: l2) = [] ++ (p.1, .item p.2) :: leafKv (p' :: l2) from rfl] at h4
  have hget := h4.kvGet rfl 0
  rw [mkCell_id] at hget
  rw [bind_ok hget, show at? (0 : Int) ([] ++ (p.1, .item p.2) :: leafKv (p' :: l2)) = some (p.1, .item p.2) from rfl]
  simp only [must_some_bind]
  obtain ⟨w5, e5, h5⟩ := h4.kvDel (a := []) (b := leafKv (p' :: l2)) (n := 0) rfl rfl
  rw [mkCell_id] at e5
  have e5' : kvDeleteByIndex P.cmp y 0 w4 = (.ok true, w5) := e5
  rw [bind_ok e5', check_true_bind]
  simp only [List.nil_append, mkCell_with] at h5
  obtain ⟨w6, e6, h6⟩ := (h5.eq (R' := cellB (mkCell P (Pos.child pp) x none (.raw true (l.length + 1) true l0 (leafKv l ++ []))) + _) (by rw [add_left_comm, List.append_nil])).kvPut
    (a := leafKv l) (b := []) (k := p.1) rfl hv (.item p.2) (allLt_leafKv hg) (by simp [AllGt])
  have e6' : kvPut P.cmp x p.1 (.item p.2) w5 = (.ok true, w6) := e6
  rw [bind_ok e6', check_true_bind]
  rw [mkCell_with] at h6
  set cx := mkCell P (Pos.child pp) x none (.raw true (l.length + 1) true l0 (leafKv l ++ (p.1, .item p.2) :: [])) with hcx
  set cy := mkCell (V := V) P (Pos.child pp) y st (.raw true (p' :: l2).length true l0' (leafKv (p' :: l2))) with hcy
  have hget2 := (h6.eq (add_left_comm _ _ _)).kvGet rfl 0
  have hget2' : kvGetByIndex y 0 w6 = (.ok (some (p'.1, .item p'.2)), w6) := hget2
  rw [bind_ok hget2']
  simp only [must_some_bind]
  obtain ⟨w7, e7, h7⟩ := (h6.eq (by abel : _ = cellB (rawParent P q pp items c0 (kvl A ++ (k, .node (Gt.leaf y st (p :: p' :: l2)).id) :: kvl post)) + (cellB cx + (cellB cy + (S +
    (lruB P.ca y st.isNone + ownPage st e + lruB P.ca x true + (besides P pp pre post + R))))))).kvDel (a := kvl A) (b := kvl post) (n := n + 1) rfl (by rw [kvl_length, hlen, hn]; simp)
  have e7' : kvDeleteByIndex P.cmp pp (n + 1) w6 = (.ok true, w7) := e7
  rw [bind_ok e7', check_true_bind]
  obtain ⟨w8, e8, h8⟩ := h7.kvPut (a := kvl A) (b := kvl post) (k := p'.1) rfl hv' (.node y) hlt hgt
  have e8' : kvPut P.cmp pp p'.1 (.node y) w7 = (.ok true, w8) := e8
  rw [bind_ok e8', check_true_bind]
  rw [rawParent_with] at h8
  have h9 := (h8.eq (add_left_comm _ _ _)).closeLeaf (items := l.length + 1) (l := l ++ [p]) (left := l0) (by rw [leafKv_append]; rfl)
  have h10 := (h9.eq (by abel : _ = cellB cy + (cellB { cx with body := .leaf (l.length + 1) (l ++ [p]) } + (cellB (rawParent P q pp items c0 (kvl A ++ (p'.1, .node y) :: kvl post)) + (S +
    (lruB P.ca y st.isNone + ownPage st e + lruB P.ca x true + (besides P pp pre post + R))))))).closeLeaf (items := (p' :: l2).length) (l := p' :: l2) (left := l0') rfl
  obtain ⟨w9, e9, h11⟩ := close_pair (q := q) (pp := pp) (pre := pre) (L := .leaf x none l) (L' := .leaf x none (l ++ [p])) (Rt := .odLeaf y (.old P.ca st e) (p' :: l2)) (k := p'.1) (post := post) (items := items) rfl
    (R := R) (h10.eq (by
      rw [bun_old_leaf, bun_leaf, leafB, ownPage_none, Option.isNone_none, hcx, hcy, mkCell_with, mkCell_with]
      show _ = cellB (rawParent P q pp items c0 (kvl A ++ (p'.1, .node y) :: kvl post)) + (S + _)
      rw [List.length_append, List.length_singleton]
      abel))
  rw [bind_ok e9]
  rw [plug_next] at h11
  rw [plug_next]
  exact h11.calmIn ⟨rfl, rfl⟩

/-- Opening a non-leaf. -/
theorem open_inner {q : Pos} {x : Id} {st : Option Ref} {r : Row K (Gt K V h)} (hI : I P w0 T w ρ (bun P q (.inner x st r) + R)) :
    ∃ items e, I P w0 T w ρ (cellB (mkCell P q x st (.raw true items false (some r.c0.id) (kvl r.cs))) +
      (slotB ((r.kids.map Gt.id : List Id) : Multiset Id) + (kidsB P x r.kids + (lruB P.ca x st.isNone + ownPage st e + R)))) := by
  rw [bun_loose, loose] at hI
  have h1 := (hI.eq (by abel : _ = cellB (mkCell P q x st (.inner (r.map Gt.kid).total r.c0.id (r.cs.map fun p => (p.1, p.2.id)) (some (r.kids.map fun t => (t.id, t.cnt))))) +
    (lruB P.ca x st.isNone + ownPage st (mkDisk P q.root (r.map Gt.kid).total (r.map Gt.kid).disk) + kidsB P x r.kids + R))).open rfl
  rw [kids_ids] at h1
  exact ⟨(r.map Gt.kid).total, mkDisk P q.root (r.map Gt.kid).total (r.map Gt.kid).disk, h1.eq (by
    show cellB (mkCell P q x st (.raw true _ false (some _) (kvl _))) + _ + _ = _
    abel)⟩

/-- Closing it again. -/
theorem close_inner {q : Pos} {x : Id} {st : Option Ref} {e : DiskNode K V} {r : Row K (Gt K V h)} {items : Nat}
    (hI : I P w0 T w ρ (cellB (mkCell P q x st (.raw true items false (some r.c0.id) (kvl r.cs))) +
      (slotB ((r.kids.map Gt.id : List Id) : Multiset Id) + (kidsB P x r.kids + (lruB P.ca x st.isNone + ownPage st e + R))))) :
    ∃ w', arrangeIgnore x w = (.ok (), w') ∧ I P w0 T w' ρ (bun P q (.odInner x (.old P.ca st e) r) + R) := by
  obtain ⟨w', h1, h2⟩ := closeArrange (r := r) (items := items) (c := mkCell P q x st (.leaf 0 [])) hI
  refine ⟨w', arrangeIgnore_ok h1, h2.eq ?_⟩
  rw [bun_old_inner, mkCell_with]
  show cellB (mkCell P q x st (Row.map Gt.kid r).body) + (kidsB P x r.kids + _) = _
  abel

theorem bun_old_none (q : Pos) (x : Id) (e : DiskNode K V) (r : Row K (Gt K V h)) : bun P q (.odInner x (.old P.ca none e) r) = bun P q (.inner x none r) := by
  rw [bun_old_inner, bun_inner, innerB]; rfl

theorem kidsB_snd (i : Id) (l : List (K × Gt K V h)) : kidsB P i ((l.map Prod.snd)) = (l.map fun p => bun P (Pos.child i) p.2).sum := by
  rw [kidsB, List.map_map]; rfl

/-- Borrowing from a non-leaf on the left. -/
theorem borrowLeft_inner {q : Pos} {pp x y : Id} {st : Option Ref} {pre : Hole K (Gt K V (h + 1))} {k k' : K} {post : List (K × Gt K V (h + 1))}
    {c0 c d0 : Gt K V h} {cs ds : List (K × Gt K V h)}
    (hv : P.Valid k) (hv' : P.Valid k') (hg : AllGt P.cmp k (kvl ds)) (hK : KeysOK P ((Row.plug pre (Gt.inner x st ⟨c0, cs ++ [(k', c)]⟩) []).cs ++ (k', Gt.inner y none ⟨c, (k, d0) :: ds⟩) :: post)) {n m : Int}
    (hn : n = (Row.kidsH pre).length) (hm : m = cs.length + 1)
    (hI : I P w0 T w ρ (bun P q (.inner pp none (Row.plug pre (.inner x st ⟨c0, cs ++ [(k', c)]⟩) ((k, .inner y none ⟨d0, ds⟩) :: post))) + R)) :
    ∃ w', borrowLeft P.cmp P.τ y pp x n m w = (.ok (), w') ∧
      I P w0 T w' ρ (bun P q (.inner pp none (Row.plug pre (.inner x none ⟨c0, cs⟩) ((k', .inner y none ⟨c, (k, d0) :: ds⟩) :: post))) + R) := by
  have hlen := length_plug pre (Gt.inner x st ⟨c0, cs ++ [(k', c)]⟩) []
  obtain ⟨items, h0⟩ := open_pair hI
  set A := (Row.plug pre (Gt.inner x st ⟨c0, cs ++ [(k', c)]⟩) []).cs with hA
  set a0 := (Row.plug pre (Gt.inner x st ⟨c0, cs ++ [(k', c)]⟩) []).c0.id with ha0
  set S : B K V := slotB (((Row.kidsH pre).map Gt.id ++ (Gt.inner x st ⟨c0, cs ++ [(k', c)]⟩).id :: (Gt.inner y none ⟨d0, ds⟩).id :: post.map fun p => p.2.id : List Id) : Multiset Id) with hS
  obtain ⟨i1, e, h1⟩ := open_inner (h0.eq (by abel : _ = bun P (Pos.child pp) (.inner x st ⟨c0, cs ++ [(k', c)]⟩) + (cellB (rawParent P q pp items a0 (kvl A ++ (k, .node (Gt.inner y none ⟨d0, ds⟩).id) :: kvl post)) +
    (S + (bun P (Pos.child pp) (.inner y none ⟨d0, ds⟩) + (besides P pp pre post + R))))))
  obtain ⟨i2, e', h2⟩ := open_inner (h1.eq (by abel : _ = bun P (Pos.child pp) (.inner y none ⟨d0, ds⟩) + (cellB (mkCell P (Pos.child pp) x st (.raw true i1 false (some c0.id) (kvl (cs ++ [(k', c)])))) +
    (slotB ((Row.kids ⟨c0, cs ++ [(k', c)]⟩ |>.map Gt.id : List Id) : Multiset Id) + (kidsB P x (Row.kids ⟨c0, cs ++ [(k', c)]⟩) + (lruB P.ca x st.isNone + ownPage st e +
    (cellB (rawParent P q pp items a0 (kvl A ++ (k, .node (Gt.inner y none ⟨d0, ds⟩).id) :: kvl post)) + (S + (besides P pp pre post + R)))))))))
  rw [ownPage_none, add_zero, Option.isNone_none] at h2
  simp only at h2
  set S1 : B K V := slotB (((Row.kids ⟨c0, cs⟩).map Gt.id : List Id) : Multiset Id) with hS1
  set S2 : B K V := slotB (((Row.kids ⟨c, (k, d0) :: ds⟩).map Gt.id : List Id) : Multiset Id) with hS2
  have hsl : slotB (V := V) (((Row.kids ⟨d0, ds⟩).map Gt.id : List Id) : Multiset Id) + slotB (((Row.kids ⟨c0, cs ++ [(k', c)]⟩).map Gt.id : List Id) : Multiset Id) = (S1 + S2 : B K V) := by
    rw [hS1, hS2, ← slotB_add, ← slotB_add]
    congr 1
    simp only [Row.kids, List.map_cons, List.map_append, List.map_nil, Multiset.coe_add]
    rw [Multiset.coe_eq_coe]
    refine (List.perm_append_comm).trans ?_
    simp
  set F : B K V := lruB P.ca x st.isNone + ownPage st e + lruB P.ca y true + (besides P pp pre post + R) with hF
  have hkc : kidsB P x (Row.kids ⟨c0, cs ++ [(k', c)]⟩) = kidsB P x (Row.kids ⟨c0, cs⟩) + bun P (Pos.child x) c := by
    simp only [Row.kids, List.map_append, List.map_cons, List.map_nil, kidsB_cons, kidsB_append, kidsB_nil, add_zero]
    abel
  rw [hkc] at h2
  have h3 := h2.eq (R' := cellB (mkCell P (Pos.child pp) x st (.raw true i1 false (some c0.id) (kvl (cs ++ [(k', c)])))) + (cellB (mkCell P (Pos.child pp) y none (.raw true i2 false (some d0.id) (kvl ds))) +
    (cellB (rawParent P q pp items a0 (kvl A ++ (k, .node y) :: kvl post)) + (bun P (Pos.child x) c + (S + (S1 + S2) + (kidsB P y (Row.kids ⟨d0, ds⟩) + kidsB P x (Row.kids ⟨c0, cs⟩)) + F))))) (by
      rw [← hsl, hF]
      show _ + (_ + (_ + (_ + (_ + (_ + (_ + (_ + (cellB (rawParent P q pp items a0 (kvl A ++ (k, .node y) :: kvl post)) + _)))))))) = _
      abel)
  unfold borrowLeft
  obtain ⟨w3, e3, h3⟩ := h3.modItems (f := fun x => sub64 x 1) rfl
  rw [mkCell_id] at e3
  rw [bind_ok e3]
  obtain ⟨w4, e4, h4⟩ := (h3.eq (add_left_comm _ _ _)).modItems (f := fun x => x + 1) rfl
  rw [mkCell_id] at e4
  rw [bind_ok e4]
  simp only [mkCell_with] at h4
  have hleaf : (w4.node y).leaf = false := h4.cell.body.2.1
  simp only [getN_bind, hleaf, Bool.false_eq_true, if_false, borrowLeftInner, bind_assoc_run]
  rw [kvl_append, kvl_cons, kvl_nil] at h4
  have hget := (h4.eq (add_left_comm _ _ _)).kvGet rfl (m - 1)
  rw [mkCell_id] at hget
  rw [bind_ok hget, at_last (kvl cs) (k', .node c.id) (by rw [kvl_length]; omega)]
  simp only [must_some_bind, asNode, pure_bind_run]
  obtain ⟨w5, e5, h5⟩ := (h4.eq (add_left_comm _ _ _)).kvDel (a := kvl cs) (b := []) (n := m - 1) rfl (by rw [kvl_length]; omega)
  rw [mkCell_id] at e5
  have e5' : kvDeleteByIndex P.cmp x (m - 1) w4 = (.ok true, w5) := e5
  rw [bind_ok e5', check_true_bind]
  simp only [List.append_nil, mkCell_with] at h5
  have h5a := h5.eq (by abel : _ = cellB (rawParent P q pp items a0 (kvl A ++ (k, .node y) :: kvl post)) + (cellB (mkCell P (Pos.child pp) y none (.raw true (i2 + 1) false (some d0.id) (kvl ds))) +
    (cellB (mkCell P (Pos.child pp) x st (.raw true (sub64 i1 1) false (some c0.id) (kvl cs))) +
     (bun P (Pos.child x) c + (S + (S1 + S2) + (kidsB P y (Row.kids ⟨d0, ds⟩) + kidsB P x (Row.kids ⟨c0, cs⟩)) + F)))))
  have hget2 : kvGetByIndex pp n w5 = (.ok (some (k, .node y)), w5) := by
    have := h5a.kvGet rfl n
    rw [show at? n (kvl A ++ (k, .node y) :: kvl post) = some (k, .node y) by
      rw [hn, at?_nat, List.getElem?_append_right (by rw [kvl_length, hlen]; simp), kvl_length, hlen]; simp] at this
    exact this
  rw [bind_ok hget2]
  simp only [must_some_bind]
  obtain ⟨w6, e6, h6⟩ := h5a.kvDel (a := kvl A) (b := kvl post) (n := n) rfl (by rw [kvl_length, hlen, hn]; simp)
  have e6' : kvDeleteByIndex P.cmp pp n w5 = (.ok true, w6) := e6
  rw [bind_ok e6', check_true_bind]
  rw [rawParent_with] at h6
  have hleft : (w6.node y).left = some d0.id := (h6.eq (add_left_comm _ _ _)).cell.body.2.2.2.1
  simp only [getN_bind, hleft, deref_some_bind]
  obtain ⟨w7, e7, h7⟩ := (h6.eq (add_left_comm _ _ _)).kvPut (a := []) (b := kvl ds) (k := k) rfl hv (.node d0.id) (by simp [AllLt]) hg
  have e7' : kvPut P.cmp y k (.node d0.id) w6 = (.ok true, w7) := e7
  rw [bind_ok e7', check_true_bind]
  rw [mkCell_with, List.nil_append] at h7
  set cp := rawParent (V := V) P q pp items a0 (kvl A ++ kvl post) with hcp
  set cx := mkCell (V := V) P (Pos.child pp) x st (.raw true (sub64 i1 1) false (some c0.id) (kvl cs)) with hcx
  obtain ⟨w8, e8, h8⟩ := (h7.eq (by abel : _ = bun P (Pos.child x) c + (cellB (mkCell P (Pos.child pp) y none (.raw true (i2 + 1) false (some d0.id) ((k, .node d0.id) :: kvl ds))) +
    (cellB cp + (cellB cx + (S + (S1 + S2) + (kidsB P y (Row.kids ⟨d0, ds⟩) + kidsB P x (Row.kids ⟨c0, cs⟩)) + F)))))).reparent (some y)
  rw [bind_ok e8]
  replace h8 : I P w0 T w8 ρ (bun P (Pos.child y) c + (cellB (mkCell P (Pos.child pp) y none (.raw true (i2 + 1) false (some d0.id) ((k, .node d0.id) :: kvl ds))) +
    (cellB cp + (cellB cx + (S + (S1 + S2) + (kidsB P y (Row.kids ⟨d0, ds⟩) + kidsB P x (Row.kids ⟨c0, cs⟩)) + F))))) := h8
  obtain ⟨w9, e9, h9⟩ := (h8.eq (add_left_comm _ _ _)).setLeft rfl (some c.id)
  rw [mkCell_id] at e9
  rw [bind_ok e9]
  rw [mkCell_with] at h9
  set cy := mkCell (V := V) P (Pos.child pp) y none (.raw true (i2 + 1) false (some c.id) ((k, .node d0.id) :: kvl ds)) with hcy
  obtain ⟨w10, e10, h10⟩ := (h9.eq (by abel : _ = cellB cp + (cellB cy + (bun P (Pos.child y) c + (cellB cx + (S + (S1 + S2) + (kidsB P y (Row.kids ⟨d0, ds⟩) + kidsB P x (Row.kids ⟨c0, cs⟩)) + F))))) ).kvPut
    (a := kvl A) (b := kvl post) (k := k') rfl hv' (.node y) hK.lt hK.gt
  have e10' : kvPut P.cmp pp k' (.node y) w9 = (.ok true, w10) := e10
  rw [bind_ok e10', check_true_bind]
  rw [hcp, rawParent_with] at h10
  obtain ⟨w11, e11, h11⟩ := close_inner (q := Pos.child pp) (x := x) (st := st) (e := e) (r := ⟨c0, cs⟩) (items := sub64 i1 1)
    (R := cellB (rawParent P q pp items a0 (kvl A ++ (k', .node y) :: kvl post)) + (cellB cy + (bun P (Pos.child y) c + (S + S2 + kidsB P y (Row.kids ⟨d0, ds⟩) + (lruB P.ca y true + (besides P pp pre post + R))))))
    (h10.eq (by rw [hF]; abel))
  rw [bind_ok e11]
  obtain ⟨w12, e12, h12⟩ := close_inner (q := Pos.child pp) (x := y) (st := none) (e := e) (r := ⟨c, (k, d0) :: ds⟩) (items := i2 + 1)
    (R := cellB (rawParent P q pp items a0 (kvl A ++ (k', .node y) :: kvl post)) + (bun P (Pos.child pp) (.odInner x (.old P.ca st e) ⟨c0, cs⟩) + (S + (besides P pp pre post + R))))
    (h11.eq (by
      show _ = cellB cy + (S2 + _)
      have : kidsB P y (Row.kids ⟨c, (k, d0) :: ds⟩) = bun P (Pos.child y) c + kidsB P y (Row.kids ⟨d0, ds⟩) := by
        simp only [Row.kids, List.map_cons, kidsB_cons]
      rw [this, ownPage_none, Option.isNone_none]
      abel))
  rw [bind_ok e12]
  rw [bun_old_none] at h12
  obtain ⟨w13, e13, h13⟩ := close_pair (q := q) (pp := pp) (pre := pre) (L := .inner x st ⟨c0, cs ++ [(k', c)]⟩) (L' := .odInner x (.old P.ca st e) ⟨c0, cs⟩) (Rt := .inner y none ⟨c, (k, d0) :: ds⟩) (k := k') (post := post) (items := items) rfl
    (R := R) (h12.eq (by
      show _ = cellB (rawParent P q pp items a0 (kvl A ++ (k', .node y) :: kvl post)) + (S + _)
      abel))
  rw [bind_ok e13]
  exact h13.calmIn ⟨rfl, rfl⟩

/-- Borrowing from a non-leaf on the right. -/
theorem borrowRight_inner {q : Pos} {pp x y : Id} {st : Option Ref} {pre : Hole K (Gt K V (h + 1))} {k k' : K} {post : List (K × Gt K V (h + 1))}
    {c0 d0 d1 : Gt K V h} {cs ds : List (K × Gt K V h)}
    (hv : P.Valid k) (hv' : P.Valid k') (hg : AllLt P.cmp (kvl cs) k) (hK : KeysOK P ((Row.plug pre (Gt.inner x none ⟨c0, cs ++ [(k, d0)]⟩) []).cs ++ (k', Gt.inner y none ⟨d1, ds⟩) :: post)) {n : Int}
    (hn : n = (Row.kidsH pre).length - 1)
    (hI : I P w0 T w ρ (bun P q (.inner pp none (Row.plug pre (.inner x none ⟨c0, cs⟩) ((k, .inner y st ⟨d0, (k', d1) :: ds⟩) :: post))) + R)) :
    ∃ w', borrowRight P.cmp P.τ x pp y n w = (.ok (), w') ∧
      I P w0 T w' ρ (bun P q (.inner pp none (Row.plug pre (.inner x none ⟨c0, cs ++ [(k, d0)]⟩) ((k', .inner y none ⟨d1, ds⟩) :: post))) + R) := by
  have hlen := length_plug pre (Gt.inner x none ⟨c0, cs⟩) []
  have hKA : kvl (Row.plug pre (Gt.inner x none ⟨c0, cs ++ [(k, d0)]⟩) []).cs = kvl (Row.plug pre (Gt.inner x none ⟨c0, cs⟩) []).cs := by
    rcases pre with _ | ⟨r, k⟩ <;> simp [Row.plug, kvl_append]
  have hlt := hK.lt
  have hgt := hK.gt
  rw [hKA] at hlt
  obtain ⟨items, h0⟩ := open_pair hI
  set A := (Row.plug pre (Gt.inner x none ⟨c0, cs⟩) []).cs with hA
  set a0 := (Row.plug pre (Gt.inner x none ⟨c0, cs⟩) []).c0.id with ha0
  set S : B K V := slotB (((Row.kidsH pre).map Gt.id ++ (Gt.inner x none ⟨c0, cs⟩).id :: (Gt.inner y st ⟨d0, (k', d1) :: ds⟩).id :: post.map fun p => p.2.id : List Id) : Multiset Id) with hS
  obtain ⟨i2, e, h1⟩ := open_inner (h0.eq (by abel : _ = bun P (Pos.child pp) (.inner y st ⟨d0, (k', d1) :: ds⟩) + (cellB (rawParent P q pp items a0 (kvl A ++ (k, .node (Gt.inner y st ⟨d0, (k', d1) :: ds⟩).id) :: kvl post)) +
    (S + (bun P (Pos.child pp) (.inner x none ⟨c0, cs⟩) + (besides P pp pre post + R))))))
  obtain ⟨i1, e', h2⟩ := open_inner (h1.eq (by abel : _ = bun P (Pos.child pp) (.inner x none ⟨c0, cs⟩) + (cellB (mkCell P (Pos.child pp) y st (.raw true i2 false (some d0.id) (kvl ((k', d1) :: ds)))) +
    (slotB ((Row.kids ⟨d0, (k', d1) :: ds⟩ |>.map Gt.id : List Id) : Multiset Id) + (kidsB P y (Row.kids ⟨d0, (k', d1) :: ds⟩) + (lruB P.ca y st.isNone + ownPage st e +
    (cellB (rawParent P q pp items a0 (kvl A ++ (k, .node (Gt.inner y st ⟨d0, (k', d1) :: ds⟩).id) :: kvl post)) + (S + (besides P pp pre post + R)))))))))
  rw [ownPage_none, add_zero, Option.isNone_none] at h2
  simp only at h2
  set S1 : B K V := slotB (((Row.kids ⟨c0, cs ++ [(k, d0)]⟩).map Gt.id : List Id) : Multiset Id) with hS1
  set S2 : B K V := slotB (((Row.kids ⟨d1, ds⟩).map Gt.id : List Id) : Multiset Id) with hS2
  have hsl : slotB (V := V) (((Row.kids ⟨c0, cs⟩).map Gt.id : List Id) : Multiset Id) + slotB (((Row.kids ⟨d0, (k', d1) :: ds⟩).map Gt.id : List Id) : Multiset Id) = (S1 + S2 : B K V) := by
    rw [hS1, hS2, ← slotB_add, ← slotB_add]
    congr 1
    simp only [Row.kids, List.map_cons, List.map_append, List.map_nil, Multiset.coe_add]
    rw [Multiset.coe_eq_coe]
    simp
  set F : B K V := lruB P.ca y st.isNone + ownPage st e + lruB P.ca x true + (besides P pp pre post + R) with hF
  have hkc : kidsB P y (Row.kids ⟨d0, (k', d1) :: ds⟩) = kidsB P y (Row.kids ⟨d1, ds⟩) + bun P (Pos.child y) d0 := by
    simp only [Row.kids, List.map_cons, kidsB_cons]
    abel
  rw [hkc] at h2
  have h3 := h2.eq (R' := cellB (mkCell P (Pos.child pp) x none (.raw true i1 false (some c0.id) (kvl cs))) + (cellB (mkCell P (Pos.child pp) y st (.raw true i2 false (some d0.id) ([] ++ (k', .node d1.id) :: kvl ds))) +
    (cellB (rawParent P q pp items a0 (kvl A ++ (k, .node y) :: kvl post)) + (bun P (Pos.child y) d0 + (S + (S1 + S2) + (kidsB P x (Row.kids ⟨c0, cs⟩) + kidsB P y (Row.kids ⟨d1, ds⟩)) + F))))) (by
      rw [← hsl, hF]
      show _ + (_ + (_ + (_ + (cellB (mkCell P (Pos.child pp) y st (.raw true i2 false (some d0.id) ([] ++ (k', .node d1.id) :: kvl ds))) + (_ + (_ + (_ + (cellB (rawParent P q pp items a0 (kvl A ++ (k, .node y) :: kvl post)) + _)))))))) = _
      abel)
  unfold borrowRight
  obtain ⟨w3, e3, h3⟩ := h3.modItems (f := fun x => x + 1) rfl
  rw [mkCell_id] at e3
  rw [bind_ok e3]
  obtain ⟨w4, e4, h4⟩ := (h3.eq (add_left_comm _ _ _)).modItems (f := fun x => sub64 x 1) rfl
  rw [mkCell_id] at e4
  rw [bind_ok e4]
  simp only [mkCell_with] at h4
  have hleaf : (w4.node x).leaf = false := (h4.eq (add_left_comm _ _ _)).cell.body.2.1
  simp only [getN_bind, hleaf, Bool.false_eq_true, if_false, borrowRightInner, bind_assoc_run]
  have hget := h4.kvGet rfl 0
  rw [mkCell_id] at hget
  rw [bind_ok hget, show at? (0 : Int) ([] ++ (k', .node d1.id) :: kvl (V := V) ds) = some (k', .node d1.id) from rfl]
  simp only [must_some_bind]
  obtain ⟨w5, e5, h5⟩ := h4.kvDel (a := []) (b := kvl ds) (n := 0) rfl rfl
  rw [mkCell_id] at e5
  have e5' : kvDeleteByIndex P.cmp y 0 w4 = (.ok true, w5) := e5
  rw [bind_ok e5', check_true_bind]
  simp only [List.nil_append, mkCell_with] at h5
  have h5a := h5.eq (by abel : _ = cellB (rawParent P q pp items a0 (kvl A ++ (k, .node y) :: kvl post)) + (cellB (mkCell P (Pos.child pp) y st (.raw true (sub64 i2 1) false (some d0.id) (kvl ds))) +
    (cellB (mkCell P (Pos.child pp) x none (.raw true (i1 + 1) false (some c0.id) (kvl cs))) +
     (bun P (Pos.child y) d0 + (S + (S1 + S2) + (kidsB P x (Row.kids ⟨c0, cs⟩) + kidsB P y (Row.kids ⟨d1, ds⟩)) + F)))))
  have hget2 : kvGetByIndex pp (n + 1) w5 = (.ok (some (k, .node y)), w5) := by
    have := h5a.kvGet rfl (n + 1)
    rw [show at? (n + 1) (kvl A ++ (k, .node y) :: kvl post) = some (k, .node y) by
      rw [hn, Int.sub_add_cancel, at?_nat, List.getElem?_append_right (by rw [kvl_length, hlen]; simp), kvl_length, hlen]; simp] at this
    exact this
  rw [bind_ok hget2]
  simp only [must_some_bind]
  obtain ⟨w6, e6, h6⟩ := h5a.kvDel (a := kvl A) (b := kvl post) (n := n + 1) rfl (by rw [kvl_length, hlen, hn]; simp)
  have e6' : kvDeleteByIndex P.cmp pp (n + 1) w5 = (.ok true, w6) := e6
  rw [bind_ok e6', check_true_bind]
  rw [rawParent_with] at h6
  have hleft : (w6.node y).left = some d0.id := (h6.eq (add_left_comm _ _ _)).cell.body.2.2.2.1
  simp only [getN_bind, hleft, deref_some_bind, asNode, pure_bind_run]
  obtain ⟨w7, e7, h7⟩ := (h6.eq (add_left_comm _ _ _)).setLeft rfl (some d1.id)
  rw [mkCell_id] at e7
  rw [bind_ok e7]
  rw [mkCell_with] at h7
  set cp := rawParent (V := V) P q pp items a0 (kvl A ++ kvl post) with hcp
  set cy := mkCell (V := V) P (Pos.child pp) y st (.raw true (sub64 i2 1) false (some d1.id) (kvl ds)) with hcy
  obtain ⟨w8, e8, h8⟩ := (h7.eq (by abel : _ = bun P (Pos.child y) d0 + (cellB (mkCell P (Pos.child pp) x none (.raw true (i1 + 1) false (some c0.id) (kvl cs))) +
    (cellB cp + (cellB cy + (S + (S1 + S2) + (kidsB P x (Row.kids ⟨c0, cs⟩) + kidsB P y (Row.kids ⟨d1, ds⟩)) + F)))))).reparent (some x)
  rw [bind_ok e8]
  replace h8 : I P w0 T w8 ρ (bun P (Pos.child x) d0 + (cellB (mkCell P (Pos.child pp) x none (.raw true (i1 + 1) false (some c0.id) (kvl cs))) +
    (cellB cp + (cellB cy + (S + (S1 + S2) + (kidsB P x (Row.kids ⟨c0, cs⟩) + kidsB P y (Row.kids ⟨d1, ds⟩)) + F))))) := h8
  obtain ⟨w9, e9, h9⟩ := (h8.eq (R' := cellB (mkCell P (Pos.child pp) x none (.raw true (i1 + 1) false (some c0.id) (kvl cs ++ []))) + _) (by rw [add_left_comm, List.append_nil])).kvPut
    (a := kvl cs) (b := []) (k := k) rfl hv (.node d0.id) hg (by simp [AllGt])
  have e9' : kvPut P.cmp x k (.node d0.id) w8 = (.ok true, w9) := e9
  rw [bind_ok e9', check_true_bind]
  rw [mkCell_with] at h9
  set cx := mkCell (V := V) P (Pos.child pp) x none (.raw true (i1 + 1) false (some c0.id) (kvl cs ++ [(k, .node d0.id)])) with hcx
  obtain ⟨w10, e10, h10⟩ := (h9.eq (by abel : _ = cellB cp + (cellB cy + (bun P (Pos.child x) d0 + (cellB cx + (S + (S1 + S2) + (kidsB P x (Row.kids ⟨c0, cs⟩) + kidsB P y (Row.kids ⟨d1, ds⟩)) + F))))) ).kvPut
    (a := kvl A) (b := kvl post) (k := k') rfl hv' (.node y) hlt hgt
  have e10' : kvPut P.cmp pp k' (.node y) w9 = (.ok true, w10) := e10
  rw [bind_ok e10', check_true_bind]
  rw [hcp, rawParent_with] at h10
  obtain ⟨w11, e11, h11⟩ := close_inner (q := Pos.child pp) (x := x) (st := none) (e := e) (r := ⟨c0, cs ++ [(k, d0)]⟩) (items := i1 + 1)
    (R := cellB (rawParent P q pp items a0 (kvl A ++ (k', .node y) :: kvl post)) + (cellB cy + (S + S2 + kidsB P y (Row.kids ⟨d1, ds⟩) + (lruB P.ca y st.isNone + ownPage st e + (besides P pp pre post + R)))))
    (h10.eq (by
      rw [hF, kvl_append, kvl_cons, kvl_nil]
      have : kidsB P x (Row.kids ⟨c0, cs ++ [(k, d0)]⟩) = bun P (Pos.child x) d0 + kidsB P x (Row.kids ⟨c0, cs⟩) := by
        simp only [Row.kids, List.map_append, List.map_cons, List.map_nil, kidsB_cons, kidsB_append, kidsB_nil, add_zero]
        abel
      rw [this, ownPage_none, Option.isNone_none]
      show _ = cellB cx + (S1 + _)
      abel))
  rw [bind_ok e11]
  obtain ⟨w12, e12, h12⟩ := close_inner (q := Pos.child pp) (x := y) (st := st) (e := e) (r := ⟨d1, ds⟩) (items := sub64 i2 1)
    (R := cellB (rawParent P q pp items a0 (kvl A ++ (k', .node y) :: kvl post)) + (bun P (Pos.child pp) (.odInner x (.old P.ca none e) ⟨c0, cs ++ [(k, d0)]⟩) + (S + (besides P pp pre post + R))))
    (h11.eq (by
      show _ = cellB cy + (S2 + _)
      abel))
  rw [bind_ok e12]
  rw [bun_old_none] at h12
  obtain ⟨w13, e13, h13⟩ := close_pair (q := q) (pp := pp) (pre := pre) (L := .inner x none ⟨c0, cs⟩) (L' := .inner x none ⟨c0, cs ++ [(k, d0)]⟩) (Rt := .odInner y (.old P.ca st e) ⟨d1, ds⟩) (k := k') (post := post) (items := items) rfl
    (R := R) (h12.eq (by
      show _ = cellB (rawParent P q pp items a0 (kvl A ++ (k', .node y) :: kvl post)) + (S + _)
      abel))
  rw [bind_ok e13]
  rw [plug_next] at h13
  obtain ⟨w14, e14, h14⟩ := h13.calmIn ⟨rfl, rfl⟩
  refine ⟨w14, e14, ?_⟩
  rw [plug_next]
  exact h14

/-! ### Merging -/

theorem add3 (a b c d : B K V) : a + (b + (c + d)) = c + (a + (b + d)) := by abel

/-- The loop that moves the items of a leaf. -/
theorem mergeLoop_leaf {c d : Cell K V} (hc : c.cm = P.toCmp) {lf rt : Option Id} {items items' : Nat} : ∀ (b a l : List (K × V)) {w : World K V},
    Spec.Sorted P.cmp (l ++ b) → AllValid P.Valid b →
    I P w0 T w ρ (cellB { c with body := .raw true items true lf (leafKv l) } + (cellB { d with body := .raw true items' true rt (leafKv (a ++ b)) } + R)) →
    ∃ w', mergeLoop P.cmp c.id d.id a.length b.length w = (.ok (), w') ∧
      I P w0 T w' ρ (cellB { c with body := .raw true items true lf (leafKv (l ++ b)) } + (cellB { d with body := .raw true items' true rt (leafKv (a ++ b)) } + R))
  | [], a, l, w, _, _, hI => ⟨w, rfl, by simpa using hI⟩
  | p :: b, a, l, w, hs, hv, hI => by
      rw [List.length_cons, mergeLoop]
      have hg := (hI.eq (add_left_comm _ _ _)).kvGet rfl a.length
      rw [show at? (a.length : Int) (leafKv (a ++ p :: b)) = some (p.1, .item p.2) by
        rw [at?_nat, leafKv_append, List.getElem?_append_right (by rw [leafKv_length]), leafKv_length]; simp [leafKv_cons]] at hg
      have hg' : kvGetByIndex d.id a.length w = (.ok (some (p.1, .item p.2)), w) := hg
      rw [bind_ok hg']
      simp only [must_some_bind, BT.reparent, pure_bind_run]
      obtain ⟨w1, e1, h1⟩ := (hI.eq (R' := cellB { c with body := .raw true items true lf (leafKv l ++ []) } + _) (by rw [List.append_nil])).kvPut
        (a := leafKv l) (b := []) (k := p.1) rfl (by rw [hc]; exact hv p (by simp)) (.item p.2)
        (by
          show AllLt c.cm.cmp _ _
          rw [hc]
          exact allLt_leafKv fun q hq => (List.pairwise_append.1 hs).2.2 q hq p (by simp)) (by simp [AllGt])
      have e1' : kvPut P.cmp c.id p.1 (.item p.2) w = (.ok true, w1) := by
        rw [← e1]
        show _ = kvPut c.cm.cmp c.id p.1 (.item p.2) w
        rw [hc]
      rw [bind_ok e1', check_true_bind]
      obtain ⟨w2, e2, h2⟩ := mergeLoop_leaf hc b (a ++ [p]) (l ++ [p]) (w := w1) (items := items) (items' := items') (lf := lf) (rt := rt) (d := d)
        (by simpa using hs) (fun q hq => hv q (by simp [hq]))
        (h1.eq (by rw [List.append_assoc, List.singleton_append, leafKv_append l]; rfl))
      rw [List.length_append, List.length_singleton] at e2
      refine ⟨w2, e2, h2.eq (by simp)⟩

/-- The loop that moves the children of a non-leaf. -/
theorem mergeLoop_inner {c d : Cell K V} (hc : c.cm = P.toCmp) {lf rt : Option Id} {items items' : Nat} : ∀ (b a l : List (K × Gt K V h)) {R : B K V} {w : World K V},
    KeysOK P (l ++ b) →
    I P w0 T w ρ (cellB { c with body := .raw true items false lf (kvl l) } + (cellB { d with body := .raw true items' false rt (kvl (a ++ b)) } + (kidsB P d.id (b.map Prod.snd) + R))) →
    ∃ w', mergeLoop P.cmp c.id d.id a.length b.length w = (.ok (), w') ∧
      I P w0 T w' ρ (cellB { c with body := .raw true items false lf (kvl (l ++ b)) } + (cellB { d with body := .raw true items' false rt (kvl (a ++ b)) } + (kidsB P c.id (b.map Prod.snd) + R)))
  | [], a, l, R, w, _, hI => ⟨w, rfl, by simpa using hI⟩
  | p :: b, a, l, R, w, hs, hI => by
      rw [List.length_cons, mergeLoop]
      have hg := (hI.eq (add_left_comm _ _ _)).kvGet rfl a.length
      rw [show at? (a.length : Int) (kvl (a ++ p :: b)) = some (p.1, .node p.2.id) by
        rw [at?_nat, kvl_append, List.getElem?_append_right (by rw [kvl_length]), kvl_length]; simp [kvl_cons]] at hg
      have hg' : kvGetByIndex d.id a.length w = (.ok (some (p.1, .node p.2.id)), w) := hg
      rw [bind_ok hg']
      simp only [must_some_bind, BT.reparent]
      rw [List.map_cons, kidsB_cons] at hI
      obtain ⟨w0', e0, h0⟩ := (hI.eq (by abel : _ = bun P (Pos.child d.id) p.2 + (cellB { c with body := .raw true items false lf (kvl l) } + (cellB { d with body := .raw true items' false rt (kvl (a ++ p :: b)) } +
        (kidsB P d.id (b.map Prod.snd) + R))))).reparent (some c.id)
      rw [bind_ok e0]
      replace h0 : I P w0 T w0' ρ (bun P (Pos.child c.id) p.2 + (cellB { c with body := .raw true items false lf (kvl l) } + (cellB { d with body := .raw true items' false rt (kvl (a ++ p :: b)) } +
        (kidsB P d.id (b.map Prod.snd) + R)))) := h0
      obtain ⟨w1, e1, h1⟩ := (h0.eq (R' := cellB { c with body := .raw true items false lf (kvl l ++ []) } + _) (by rw [List.append_nil, add_left_comm])).kvPut
        (a := kvl l) (b := []) (k := p.1) rfl (by rw [hc]; exact hs.2 p (by simp)) (.node p.2.id)
        (by
          show AllLt c.cm.cmp _ _
          rw [hc]
          exact hs.lt) (by simp [AllGt])
      have e1' : kvPut P.cmp c.id p.1 (.node p.2.id) w0' = (.ok true, w1) := by
        rw [← e1]
        show _ = kvPut c.cm.cmp c.id p.1 (.node p.2.id) w0'
        rw [hc]
      rw [bind_ok e1', check_true_bind]
      obtain ⟨w2, e2, h2⟩ := mergeLoop_inner hc b (a ++ [p]) (l ++ [p]) (w := w1) (R := bun P (Pos.child c.id) p.2 + R) (items := items) (items' := items') (lf := lf) (rt := rt) (d := d)
        (by simpa using hs)
        (h1.eq (by
          rw [List.append_assoc, List.singleton_append, kvl_append l]
          show cellB { c with body := .raw true items false lf (kvl l ++ kvl [p]) } + _ = _
          abel))
      rw [List.length_append, List.length_singleton] at e2
      refine ⟨w2, e2, h2.eq ?_⟩
      rw [List.append_assoc, List.append_assoc, List.singleton_append, List.map_cons, kidsB_cons]
      abel

/-- Two neighbours made one: `D` holds all that `L`, the key `k` and `Rt` held. -/
inductive Join (ca : Bool) (x y : Id) (k : K) : {h : Nat} → Option Ref → DiskNode K V → Option Ref → Gt K V h → Gt K V h → Gt K V h → Prop
  | leaf (st e st2 l l2) : Join ca x y k st e st2 (.leaf x st l) (.leaf y st2 l2) (.odLeaf x (.old ca st e) (l ++ l2))
  | inner {h : Nat} (st e st2) (c0 d0 : Gt K V h) (cs ds) : Join ca x y k st e st2 (.inner x st ⟨c0, cs⟩) (.inner y st2 ⟨d0, ds⟩) (.odInner x (.old ca st e) ⟨c0, cs ++ (k, d0) :: ds⟩)

/-- The last step in making the joint node: its prefix sums. -/
def finish (x : Id) : M K V Unit := do
  if !(← getN x).leaf then arrangeIgnore x else pure ()

/-- What it achieves. -/
def Fin (P : Par K) (w0 : World K V) (T : Tot K V) (x : Id) (st : Option Ref) (b : Body K V) (Z : B K V) (D : Gt K V h) : Prop :=
  ∀ (q : Pos) (ρ : Option Id) (w : World K V) (R : B K V), I P w0 T w ρ (cellB (mkCell P q x st b) + (Z + R)) → ∃ w', finish x w = (.ok (), w') ∧ I P w0 T w' ρ (bun P q D + R)

theorem mergeInto_run {q : Pos} {pp x y : Id} {st st2 : Option Ref} {pre : Hole K (Gt K V h)} {k : K} {post : List (K × Gt K V h)} {L Rt D : Gt K V h} {checked : Bool} {n : Int} {ed : DiskNode K V}
    (hJ : Join P.ca x y k st ed st2 L Rt D) (hv : P.Valid k) (ho : Ord P.toCmp (L.erase.seq ++ .inr k :: Rt.erase.seq)) (hn : n = (Row.kidsH pre).length)
    (hI : I P w0 T w ρ (bun P q (.inner pp none (Row.plug pre L ((k, Rt) :: post))) + R)) :
    ∃ (w' : World K V) (items : Nat) (e e2 : DiskNode K V) (D : Gt K V h) (b : Body K V) (Z : B K V) (c : Cell K V),
      mergeInto P.cmp pp x y n (decide (h = 0)) checked w = (.ok (), w') ∧ Join P.ca x y k st e st2 L Rt D ∧ Fin P w0 T x st b Z D ∧ c.id = y ∧ c.ref = refOf st2 ∧
      I P w0 T w' ρ (cellB (rawParent P q pp items (Row.plug pre L []).c0.id (kvl (Row.plug pre L []).cs ++ (k, .node y) :: kvl post)) +
        (slotB (((Row.kidsH pre).map Gt.id ++ x :: y :: post.map fun p => p.2.id : List Id) : Multiset Id) +
        (cellB (mkCell P (Pos.child pp) x st b) + (Z + ((cellB c + lruB P.ca c.id st2.isNone + ownPage st2 e2) + (besides P pp pre post + R)))))) := by
  have hlen := length_plug pre L []
  obtain ⟨items, h0⟩ := open_pair hI
  cases hJ with
  | leaf _ _ _ l l2 =>
    set S : B K V := slotB (((Row.kidsH pre).map Gt.id ++ (Gt.leaf x st l).id :: (Gt.leaf y st2 l2).id :: post.map fun p => p.2.id : List Id) : Multiset Id) with hS
    set A := (Row.plug pre (Gt.leaf x st l) []).cs with hA
    set a0 := (Row.plug pre (Gt.leaf x st l) []).c0.id with ha0
    rw [bun_leaf, bun_leaf, leafB, leafB] at h0
    set e := mkDisk P (Pos.child pp).root l.length (.leaf l) with he
    set e2 := mkDisk P (Pos.child pp).root l2.length (.leaf l2) with he2
    set F := S + (lruB P.ca x st.isNone + ownPage st e + (lruB P.ca y st2.isNone + ownPage st2 e2) + (besides P pp pre post + R)) with hF
    set cp : Cell K V := rawParent P q pp items a0 (kvl A ++ (k, .node (Gt.leaf y st2 l2).id) :: kvl post) with hcp
    obtain ⟨l0, h1⟩ := (h0.eq (R' := cellB (mkCell P (Pos.child pp) x st (.leaf l.length l)) + (cellB (mkCell P (Pos.child pp) y st2 (.leaf l2.length l2)) +
      (cellB cp + F))) (by rw [hF]; abel)).openLeaf rfl
    obtain ⟨l0', h2⟩ := (h1.eq (add_left_comm _ _ _)).openLeaf rfl
    simp only [mkCell_with] at h2
    have hs := ho.sub (t := (Pt.leaf (l ++ l2)).seq) (by
      simp only [seq_leaf, erase_leaf, List.map_append]
      exact List.Sublist.append_left (List.sublist_cons_self _ _) _)
    unfold mergeInto
    have hit : (w.node y).items = l2.length := h2.cell.body.2.2.1
    simp only [getN_bind, hit]
    obtain ⟨w3, e3, h3⟩ := (h2.eq (add_left_comm _ _ _)).modItems (f := fun x => x + l2.length) rfl
    rw [mkCell_id] at e3
    rw [bind_ok e3]
    have hget : kvGetByIndex pp n w3 = (.ok (some (k, .node y)), w3) := by
      have := (h3.eq (add3 _ _ _ _)).kvGet rfl n
      rw [show at? n (kvl A ++ (k, .node (Gt.leaf y st2 l2).id) :: kvl post) = some (k, .node y) by
        rw [hn, at?_nat, List.getElem?_append_right (by rw [kvl_length, hlen]; simp), kvl_length, hlen]; simp] at this
      exact this
    rw [bind_ok hget]
    simp only [must_some_bind, decide_true, Bool.not_true, Bool.false_eq_true, if_false, pure_bind_run]
    have hl2 : kvLen y w3 = (.ok (l2.length : Int), w3) := by
      have := (h3.eq (add_left_comm _ _ _)).kvLen rfl
      rw [leafKv_length] at this
      exact this
    rw [bind_ok hl2]
    obtain ⟨w4, e4, h4⟩ := mergeLoop_leaf (c := mkCell P (Pos.child pp) x st (.leaf 0 [])) (d := mkCell P (Pos.child pp) y st2 (.leaf 0 [])) (w := w3) (items := l.length + l2.length)
      (items' := l2.length) (lf := l0) (rt := l0') rfl l2 [] l hs.leaf.1 (fun p hp => hs.leaf.2 p (by simp [hp])) h3
    have h5 := h4.closeLeaf (l := l ++ l2) rfl
    rw [mkCell_with] at h5
    refine ⟨w4, items, e, e2, _, _, lruB P.ca x st.isNone + ownPage st e, _, e4, .leaf st e st2 l l2, ?_, ?_, ?_, h5.eq (R' := cellB cp + (S + (cellB (mkCell P (Pos.child pp) x st (.leaf (l ++ l2).length (l ++ l2))) +
      ((lruB P.ca x st.isNone + ownPage st e) + ((cellB (mkCell P (Pos.child pp) y st2 (.raw true l2.length true l0' (leafKv l2))) + lruB P.ca y st2.isNone + ownPage st2 e2) + (besides P pp pre post + R)))))) ?_⟩
    · intro q ρ w R hI
      refine ⟨w, ?_, hI.eq (by rw [bun_old_leaf, add_assoc, add_assoc, add_assoc])⟩
      have : (w.node x).leaf = true := hI.cell.body.2.1
      simp only [finish, getN_bind, this]
      rfl
    · rfl
    · rfl
    · rw [hF, List.length_append]
      show _ + (cellB (mkCell P (Pos.child pp) y st2 (.raw true l2.length true l0' (leafKv l2))) + _) = _
      abel
  | inner _ _ _ c0 d0 cs ds =>
    set S : B K V := slotB (((Row.kidsH pre).map Gt.id ++ (Gt.inner x st ⟨c0, cs⟩).id :: (Gt.inner y st2 ⟨d0, ds⟩).id :: post.map fun p => p.2.id : List Id) : Multiset Id) with hS
    set A := (Row.plug pre (Gt.inner x st ⟨c0, cs⟩) []).cs with hA
    set a0 := (Row.plug pre (Gt.inner x st ⟨c0, cs⟩) []).c0.id with ha0
    set cp : Cell K V := rawParent P q pp items a0 (kvl A ++ (k, .node (Gt.inner y st2 ⟨d0, ds⟩).id) :: kvl post) with hcp
    obtain ⟨i1, e, h1⟩ := open_inner (h0.eq (by abel : _ = bun P (Pos.child pp) (.inner x st ⟨c0, cs⟩) + (cellB cp +
      (S + (bun P (Pos.child pp) (.inner y st2 ⟨d0, ds⟩) + (besides P pp pre post + R))))))
    obtain ⟨i2, e2, h2⟩ := open_inner (h1.eq (by abel : _ = bun P (Pos.child pp) (.inner y st2 ⟨d0, ds⟩) + (cellB (mkCell P (Pos.child pp) x st (.raw true i1 false (some c0.id) (kvl cs))) +
      (slotB ((Row.kids ⟨c0, cs⟩ |>.map Gt.id : List Id) : Multiset Id) + (kidsB P x (Row.kids ⟨c0, cs⟩) + (lruB P.ca x st.isNone + ownPage st e +
      (cellB cp + (S + (besides P pp pre post + R)))))))))
    simp only at h2
    set S3 : B K V := slotB (((Row.kids ⟨c0, cs ++ (k, d0) :: ds⟩).map Gt.id : List Id) : Multiset Id) with hS3
    have hsl : slotB (V := V) (((Row.kids ⟨d0, ds⟩).map Gt.id : List Id) : Multiset Id) + slotB (((Row.kids ⟨c0, cs⟩).map Gt.id : List Id) : Multiset Id) = (S3 : B K V) := by
      rw [hS3, ← slotB_add]
      congr 1
      simp only [Row.kids, List.map_cons, List.map_append, Multiset.coe_add]
      rw [Multiset.coe_eq_coe]
      refine (List.perm_append_comm).trans ?_
      simp
    set F := S + (S3 + kidsB P x (Row.kids ⟨c0, cs⟩) + (lruB P.ca x st.isNone + ownPage st e + (lruB P.ca y st2.isNone + ownPage st2 e2) + (besides P pp pre post + R))) with hF
    have h2 := h2.eq (R' := cellB (mkCell P (Pos.child pp) y st2 (.raw true i2 false (some d0.id) (kvl ds))) + (cellB (mkCell P (Pos.child pp) x st (.raw true i1 false (some c0.id) (kvl cs))) +
      (cellB cp + (bun P (Pos.child y) d0 + (kidsB P y (ds.map Prod.snd) + F))))) (by
        rw [hF, ← hsl, show kidsB P y (Row.kids ⟨d0, ds⟩) = bun P (Pos.child y) d0 + kidsB P y (ds.map Prod.snd) by simp only [Row.kids, kidsB_cons]]
        abel)
    have hK : KeysOK P (cs ++ (k, d0) :: ds) := by
      have h0 : Ord P.toCmp (Gt.inner x st ⟨c0, cs ++ (k, d0) :: ds⟩).erase.seq := by
        have : (Gt.inner x st ⟨c0, cs ++ (k, d0) :: ds⟩).erase.seq = (Gt.inner x st ⟨c0, cs⟩).erase.seq ++ .inr k :: (Gt.inner y st2 ⟨d0, ds⟩).erase.seq := by
          simp [seq_inner, Row.map]
        rw [this]
        exact ho
      rw [erase_inner] at h0
      have := h0.seps
      rw [Row.map_cs] at this
      exact ⟨(List.pairwise_map.1 this.1), fun p hp => this.2 _ (List.mem_map_of_mem hp)⟩
    unfold mergeInto
    have hit : (w.node y).items = i2 := h2.cell.body.2.2.1
    have hleft : (w.node y).left = some d0.id := h2.cell.body.2.2.2.1
    simp only [getN_bind, hit]
    obtain ⟨w3, e3, h3⟩ := (h2.eq (add_left_comm _ _ _)).modItems (f := fun x => x + i2) rfl
    rw [mkCell_id] at e3
    rw [bind_ok e3]
    rw [mkCell_with] at h3
    have hget : kvGetByIndex pp n w3 = (.ok (some (k, .node y)), w3) := by
      have := (h3.eq (add3 _ _ _ _)).kvGet rfl n
      rw [show at? n (kvl A ++ (k, .node (Gt.inner y st2 ⟨d0, ds⟩).id) :: kvl post) = some (k, .node y) by
        rw [hn, at?_nat, List.getElem?_append_right (by rw [kvl_length, hlen]; simp), kvl_length, hlen]; simp] at this
      exact this
    rw [bind_ok hget]
    simp only [must_some_bind, Nat.add_one_ne_zero, decide_false, Bool.not_false, if_true, bind_assoc_run, hleft, deref_some_bind]
    obtain ⟨w4, e4, h4⟩ := (h3.eq (by abel : _ = bun P (Pos.child y) d0 + (cellB (mkCell P (Pos.child pp) x st (.raw true (i1 + i2) false (some c0.id) (kvl cs))) +
      (cellB (mkCell P (Pos.child pp) y st2 (.raw true i2 false (some d0.id) (kvl ds))) + (cellB cp + (kidsB P y (ds.map Prod.snd) + F)))))).reparent (some x)
    rw [bind_ok e4]
    replace h4 : I P w0 T w4 ρ (bun P (Pos.child x) d0 + (cellB (mkCell P (Pos.child pp) x st (.raw true (i1 + i2) false (some c0.id) (kvl cs))) +
      (cellB (mkCell P (Pos.child pp) y st2 (.raw true i2 false (some d0.id) (kvl ds))) + (cellB cp + (kidsB P y (ds.map Prod.snd) + F))))) := h4
    obtain ⟨w5, e5, h5⟩ := (h4.eq (R' := cellB (mkCell P (Pos.child pp) x st (.raw true (i1 + i2) false (some c0.id) (kvl cs ++ []))) + _) (by rw [List.append_nil, add_left_comm])).kvPut
        (a := kvl cs) (b := []) (k := k) rfl hv (.node d0.id) hK.lt (by simp [AllGt])
    have e5' : kvPut P.cmp x k (.node d0.id) w4 = (.ok true, w5) := e5
    have hput : (if checked = true then do M.check 1785 (← kvPut P.cmp x k (.node d0.id)) else kvPutIgnore P.cmp x k (.node d0.id)) w4 = (.ok (), w5) := by
      cases checked
      · simp only [Bool.false_eq_true, if_false, kvPutIgnore, bind_ok (attempt_ok e5')]; rfl
      · simp only [if_true, bind_ok e5']; rfl
    rw [bind_ok hput]
    have hl2 : kvLen y w5 = (.ok (ds.length : Int), w5) := by
      have := (h5.eq (add3 _ _ _ _)).kvLen rfl
      rw [kvl_length] at this
      exact this
    rw [bind_ok hl2]
    obtain ⟨w6, e6, h6⟩ := mergeLoop_inner (c := mkCell P (Pos.child pp) x st (.leaf 0 [])) (d := mkCell P (Pos.child pp) y st2 (.leaf 0 [])) (w := w5) (items := i1 + i2)
      (items' := i2) (lf := some c0.id) (rt := some d0.id) (R := cellB cp + (bun P (Pos.child x) d0 + F)) rfl ds [] (cs ++ [(k, d0)]) (by simpa using hK) (h5.eq (by
        rw [List.nil_append, kvl_append]
        show cellB (mkCell P (Pos.child pp) x st (.raw true (i1 + i2) false (some c0.id) (kvl cs ++ kvl [(k, d0)]))) + _ = cellB (mkCell P (Pos.child pp) x st (.raw true (i1 + i2) false (some c0.id) (kvl cs ++ kvl [(k, d0)]))) +
          (cellB (mkCell P (Pos.child pp) y st2 (.raw true i2 false (some d0.id) (kvl ds))) + (kidsB P y (ds.map Prod.snd) + _))
        abel))
    refine ⟨w6, items, e, e2, _, .raw true (i1 + i2) false (some c0.id) (kvl (cs ++ (k, d0) :: ds)), S3 + (kidsB P x (Row.kids ⟨c0, cs ++ (k, d0) :: ds⟩) + (lruB P.ca x st.isNone + ownPage st e)), _, e6, .inner st e st2 c0 d0 cs ds, ?_, ?_, ?_,
      h6.eq (R' := cellB cp + (S + (cellB (mkCell P (Pos.child pp) x st (.raw true (i1 + i2) false (some c0.id) (kvl (cs ++ (k, d0) :: ds)))) +
      ((S3 + (kidsB P x (Row.kids ⟨c0, cs ++ (k, d0) :: ds⟩) + (lruB P.ca x st.isNone + ownPage st e))) + ((cellB (mkCell P (Pos.child pp) y st2 (.raw true i2 false (some d0.id) (kvl ds))) + lruB P.ca y st2.isNone + ownPage st2 e2) + (besides P pp pre post + R)))))) ?_⟩
    · intro q ρ w R hI
      obtain ⟨w', e', h'⟩ := close_inner (q := q) (x := x) (st := st) (e := e) (r := ⟨c0, cs ++ (k, d0) :: ds⟩) (items := i1 + i2) (R := R) (hI.eq (by
        show _ = cellB (mkCell P q x st (.raw true (i1 + i2) false (some c0.id) (kvl (cs ++ (k, d0) :: ds)))) + _
        abel))
      refine ⟨w', ?_, h'⟩
      have : (w.node x).leaf = false := hI.cell.body.2.1
      simp only [finish, getN_bind, this, Bool.not_false, if_true]
      exact e'
    · rfl
    · rfl
    · rw [hF, List.append_assoc, List.singleton_append, List.nil_append,
        show kidsB P x (Row.kids ⟨c0, cs ++ (k, d0) :: ds⟩) = kidsB P x (Row.kids ⟨c0, cs⟩) + (bun P (Pos.child x) d0 + kidsB P x (ds.map Prod.snd)) by
          simp only [Row.kids, List.map_append, List.map_cons, kidsB_cons, kidsB_append]
          abel]
      show cellB (mkCell P (Pos.child pp) x st (.raw true (i1 + i2) false (some c0.id) (kvl (cs ++ (k, d0) :: ds)))) + (cellB (mkCell P (Pos.child pp) y st2 (.raw true i2 false (some d0.id) (kvl ds))) + (kidsB P x (ds.map Prod.snd) + _)) = _
      abel

theorem Join.is {ca : Bool} {x y : Id} {k : K} {st st2 : Option Ref} {e : DiskNode K V} {L Rt D : Gt K V h} (hJ : Join ca x y k st e st2 L Rt D) :
    D.Is x (some (.old ca st e)) ∧ L.id = x ∧ Rt.id = y ∧ D.id = x := by
  cases hJ <;> exact ⟨⟨rfl, rfl⟩, rfl, rfl, rfl⟩

/-- The separator goes. -/
theorem dropSep_run {q : Pos} {pp x y : Id} {st : Option Ref} {pre : Hole K (Gt K V h)} {k : K} {post : List (K × Gt K V h)} {L D : Gt K V h} {b : Body K V} {Z W : B K V} {n : Int} {items : Nat}
    (hL : L.id = x) (hD : D.id = x) (hF : Fin P w0 T x st b Z D) (hn : n = (Row.kidsH pre).length)
    (hI : I P w0 T w ρ (cellB (rawParent P q pp items (Row.plug pre L []).c0.id (kvl (Row.plug pre L []).cs ++ (k, .node y) :: kvl post)) +
        (slotB (((Row.kidsH pre).map Gt.id ++ x :: y :: post.map fun p => p.2.id : List Id) : Multiset Id) +
        (cellB (mkCell P (Pos.child pp) x st b) + (Z + (W + (besides P pp pre post + R))))))) :
    ∃ w', dropSep P.cmp pp x n w = (.ok (), w') ∧ I P w0 T w' ρ (bun P q (.inner pp none (Row.plug pre D post)) + (W + R)) := by
  have hlen := length_plug pre L []
  unfold dropSep
  obtain ⟨w1, e1, h1⟩ := hI.kvDel (a := kvl (Row.plug pre L []).cs) (b := kvl post) (n := n) rfl (by rw [kvl_length, hlen, hn]; simp)
  have e1' : kvDeleteByIndex P.cmp pp n w = (.ok true, w1) := e1
  rw [bind_ok e1', check_true_bind]
  rw [rawParent_with] at h1
  set S : B K V := slotB (((Row.plug pre D post).kids.map Gt.id : List Id) : Multiset Id) with hS
  have hsl : slotB (V := V) (((Row.kidsH pre).map Gt.id ++ x :: y :: post.map fun p => p.2.id : List Id) : Multiset Id) = (slotB {y} + S : B K V) := by
    rw [hS, ← slotB_add]
    congr 1
    simp only [Row.kids_plug, List.map_append, List.map_cons, List.map_map, hD]
    rw [← Multiset.coe_singleton, Multiset.coe_add, Multiset.coe_eq_coe]
    refine List.Perm.trans (l₂ := (y :: ((Row.kidsH pre).map Gt.id ++ x :: post.map fun p => p.2.id))) ?_ (List.Perm.refl _)
    refine List.Perm.trans (List.Perm.append_left _ (List.Perm.swap y x _)) List.perm_middle
  have h2 := (h1.eq (R' := slotB {y} + (cellB (mkCell P (Pos.child pp) x st b) + (Z + (cellB (rawParent P q pp items (Row.plug pre L []).c0.id (kvl (Row.plug pre L []).cs ++ kvl post)) +
    (S + (W + (besides P pp pre post + R))))))) (by rw [hsl]; abel)).forgetSlot
  obtain ⟨w3, e3, h3⟩ := hF _ _ _ _ h2
  have e3' : (do if !(← getN x).leaf then arrangeIgnore x else pure () : M K V Unit) w1 = (.ok (), w3) := e3
  rw [← bind_assoc_run, bind_ok e3']
  obtain ⟨w', h4, h5⟩ := closeArrange (r := Row.plug pre D post) (items := items) (c := mkCell P q pp none (.leaf 0 []))
    (R := lruB P.ca pp true + (W + R)) (h3.eq (by
      have e1 : (Row.plug pre D post).c0.id = (Row.plug pre L []).c0.id ∧ kvl (Row.plug pre D post).cs = kvl (Row.plug pre L []).cs ++ kvl post := by
        rcases pre with _ | ⟨r, k⟩ <;> simp [Row.plug, hL, hD, kvl_append]
      rw [e1.1, e1.2, mkCell_id, besides]
      show bun P (Pos.child pp) D + (cellB (mkCell P q pp none _) + (S + _)) = cellB (mkCell P q pp none _) + (S + (kidsB P pp (Row.plug pre D post).kids + _))
      rw [Row.kids_plug, kidsB_append, kidsB_cons]
      abel))
  refine ⟨w', arrangeIgnore_ok h4, h5.eq ?_⟩
  rw [bun_inner, innerB, ownPage_none, add_zero, mkCell_id]
  show cellB (mkCell P q pp none _) + _ = cellB (mkCell P q pp none _) + _ + (List.map (bun P (Pos.child pp)) _).sum + _
  rw [show (List.map (bun P (Pos.child pp)) (Row.plug pre D post).kids).sum = kidsB P pp (Row.plug pre D post).kids from rfl, Option.isNone_none]
  abel

/-- The joint node becomes the root. -/
theorem shrinkRoot_run {pp x y : Id} {st : Option Ref} {l : List (K × Val V)} {a0 : Id} {D : Gt K V h} {b : Body K V} {Z W : B K V} {items : Nat}
    (hF : Fin P w0 T x st b Z D)
    (hI : I P w0 T w (some pp) (cellB (rawParent P ⟨none, true⟩ pp items a0 l) + (slotB (([x, y] : List Id) : Multiset Id) +
        (cellB (mkCell P (Pos.child pp) x st b) + (Z + (W + (lruB P.ca pp true + (slotB {pp} + R)))))))) :
    ∃ w', shrinkRoot P.τ x w = (.ok (), w') ∧ I P w0 T w' (some x) (bun P ⟨none, true⟩ D + (slotB {x} + (W + R))) := by
  have hsl : slotB (V := V) (([x, y] : List Id) : Multiset Id) = (slotB {x} + slotB {y} : B K V) := by
    rw [← slotB_add]; congr 1
  rw [hsl] at hI
  unfold shrinkRoot
  have hro : rootOf P.τ w = (.ok pp, w) := by
    simp only [rootOf, getT_bind, hI.root]; rfl
  rw [bind_ok hro]
  obtain ⟨w1, e1, h1⟩ := (hI.eq (R' := cellB (rawParent P ⟨none, true⟩ pp items a0 l) + lruB P.ca pp true + ownPage none (mkDisk P true 0 (.leaf [])) + (slotB {y} + (slotB {pp} + (cellB (mkCell P (Pos.child pp) x st b) + (Z + (W + (slotB {x} + R)))))))
    (by rw [ownPage_none]; abel)).markDiscard rfl
  have e1' : markNodeToBeDiscarded P.τ pp w = (.ok (), w1) := e1
  rw [bind_ok e1']
  have h2 := (((h1.eq (by rw [add_assoc])).forget).forgetOff).forgetSlot.forgetSlot
  obtain ⟨w3, e3, h3⟩ := h2.modN (mkCell P ⟨none, true⟩ x st b) rfl rfl (f := fun x => { x with root := true, parent := none })
    (fun n hn => ⟨hn.tree, rfl, rfl, hn.ref, hn.dirty, hn.body.congr rfl rfl rfl rfl rfl rfl⟩)
  have e3' : modN x (fun x => { x with root := true, parent := none }) w1 = (.ok (), w3) := e3
  rw [bind_ok e3']
  obtain ⟨w4, e4, h4⟩ := h3.setRoot (some x)
  rw [bind_ok e4]
  obtain ⟨w5, e5, h5⟩ := hF _ _ _ _ h4
  exact ⟨w5, e5, h5.eq (by abel)⟩

/-! ### What borrowing and merging do to the tree -/

/-- Two neighbours and the key between them, before and after one has borrowed from the other. -/
structure Swap (P : Par K) (L : Gt K V h) (k : K) (Rt L' : Gt K V h) (k' : K) (Rt' : Gt K V h) : Prop where
  flat : L'.erase.flat ++ Rt'.erase.flat = L.erase.flat ++ Rt.erase.flat
  ord : ∀ A Z, Ord P.toCmp (A ++ (L.erase.seq ++ .inr k :: Rt.erase.seq) ++ Z) → Ord P.toCmp (A ++ (L'.erase.seq ++ .inr k' :: Rt'.erase.seq) ++ Z)
  clean : L.Clean → Rt.Clean → L'.Clean ∧ Rt'.Clean
  odds : L'.odds + Rt'.odds = L.odds + Rt.odds
  due : L'.due + Rt'.due ≤ L.due + Rt.due + 1
  occ : L'.erase.Occ P.min P.max ∧ Rt'.erase.Occ P.min P.max
  sub : ∀ {b : Nat} (s : Gt K V b), b < h → Sub s L ∨ Sub s Rt → Sub s L' ∨ Sub s Rt'

theorem sub_kids {b : Nat} {s : Gt K V b} {x : Id} {st : Option Ref} {r : Row K (Gt K V h)} (hb : b < h + 1) (hs : Sub s (Gt.inner x st r)) : st = none ∧ ∃ c ∈ r.kids, Sub s c := by
  rcases hs with ⟨rfl, -⟩ | ⟨i, r', e, hc⟩
  · omega
  · replace e : Gt.inner x st r = Gt.inner i none r' := e
    cases e
    exact ⟨rfl, hc⟩

theorem clean_st {x : Id} {st : Option Ref} {r : Row K (Gt K V h)} (hc : (Gt.inner x st r).Clean) : ∀ c ∈ r.kids, c.Clean := fun c h => (Clean_inner _ _ _ |>.1 hc c h).1

theorem clean_none {x : Id} {r : Row K (Gt K V h)} (hc : ∀ c ∈ r.kids, c.Clean) : (Gt.inner x none r).Clean := (Clean_inner _ _ _).2 fun c h => ⟨hc c h, by simp⟩

theorem Ord.keys {pp : Id} {st : Option Ref} {r : Row K (Gt K V h)} (ho : Ord P.toCmp (Gt.inner pp st r).erase.seq) : KeysOK P r.cs := by
  rw [erase_inner] at ho
  have := ho.seps
  rw [Row.map_cs] at this
  exact ⟨(List.pairwise_map.1 this.1), fun p hp => this.2 _ (List.mem_map_of_mem hp)⟩

/-- Where the two neighbours are among the keys and items. -/
theorem seq_pair (pp : Id) (st : Option Ref) (pre : Hole K (Gt K V h)) (post : List (K × Gt K V h)) : ∃ A Z : List ((K × V) ⊕ K), ∀ (L Rt : Gt K V h) (k : K),
    (Gt.inner pp st (Row.plug pre L ((k, Rt) :: post))).erase.seq = A ++ (L.erase.seq ++ .inr k :: Rt.erase.seq) ++ Z := by
  rcases pre with _ | ⟨r, k'⟩
  · exact ⟨[], (post.map fun p => (p.1, p.2.erase)).flatMap fun p => .inr p.1 :: p.2.seq, fun L Rt k => by simp [seq_inner, Row.plug, Row.map, List.flatMap_map]⟩
  · exact ⟨r.c0.erase.seq ++ (r.cs.map fun p => (p.1, p.2.erase)).flatMap (fun p => .inr p.1 :: p.2.seq) ++ [.inr k'], (post.map fun p => (p.1, p.2.erase)).flatMap fun p => .inr p.1 :: p.2.seq,
      fun L Rt k => by simp [seq_inner, Row.plug, Row.map, List.flatMap_map]⟩

theorem swapL_leaf {x y : Id} {st : Option Ref} {l l2 : List (K × V)} {p : K × V} {k : K} (hne : l ≠ []) (h1 : P.min ≤ l.length) (h2 : l.length ≤ P.max) (h3 : P.min ≤ l2.length + 1) (h4 : l2.length + 1 ≤ P.max) :
    Swap P (.leaf x st (l ++ [p])) k (.leaf y none l2) (.leaf x none l) p.1 (.leaf y none (p :: l2)) := by
  refine ⟨by simp, fun A Z ho => ?_, fun _ _ => ⟨trivial, trivial⟩, rfl, by simp [due_leaf], ⟨⟨h1, h2⟩, by rw [erase_leaf, occ_leaf, List.length_cons]; exact ⟨h3, h4⟩⟩, fun s hb => by omega⟩
  refine ord_split hne (ho.sub ?_)
  refine List.Sublist.append_right (List.Sublist.append_left ?_ _) _
  simp only [erase_leaf, seq_leaf, List.map_append, List.map_cons, List.map_nil, List.append_assoc, List.singleton_append]
  exact List.Sublist.append_left (List.Sublist.cons_cons _ (List.sublist_cons_self _ _)) _

theorem swapR_leaf {x y : Id} {st : Option Ref} {l l2 : List (K × V)} {p p' : K × V} {k : K} (h1 : P.min ≤ l.length + 1) (h2 : l.length + 1 ≤ P.max) (h3 : P.min ≤ l2.length + 1) (h4 : l2.length + 1 ≤ P.max) :
    Swap P (.leaf x none l) k (.leaf y st (p :: p' :: l2)) (.leaf x none (l ++ [p])) p'.1 (.leaf y none (p' :: l2)) := by
  refine ⟨by simp, fun A Z ho => ?_, fun _ _ => ⟨trivial, trivial⟩, rfl, by simp [due_leaf], ⟨by rw [erase_leaf, occ_leaf, List.length_append]; exact ⟨h1, h2⟩, by rw [erase_leaf, occ_leaf, List.length_cons]; exact ⟨h3, h4⟩⟩, fun s hb => by omega⟩
  refine ord_split (l1 := l ++ [p]) (by simp) (ho.sub ?_)
  refine List.Sublist.append_right (List.Sublist.append_left ?_ _) _
  simp only [erase_leaf, seq_leaf, List.map_append, List.map_cons, List.map_nil, List.append_assoc, List.singleton_append]
  exact List.Sublist.append_left (List.sublist_cons_self _ _) _

theorem swapL_inner {x y : Id} {st : Option Ref} {c0 c d0 : Gt K V h} {cs ds : List (K × Gt K V h)} {k k' : K} (h1 : P.min ≤ cs.length) (h2 : cs.length ≤ P.max) (h3 : P.min ≤ ds.length + 1) (h4 : ds.length + 1 ≤ P.max)
    (ho1 : ∀ t ∈ (Row.kids ⟨c0, cs ++ [(k', c)]⟩ : List (Gt K V h)), t.erase.Occ P.min P.max) (ho2 : ∀ t ∈ (Row.kids ⟨d0, ds⟩ : List (Gt K V h)), t.erase.Occ P.min P.max) :
    Swap P (.inner x st ⟨c0, cs ++ [(k', c)]⟩) k (.inner y none ⟨d0, ds⟩) (.inner x none ⟨c0, cs⟩) k' (.inner y none ⟨c, (k, d0) :: ds⟩) := by
  have m1 : ∀ t, t ∈ (Row.kids ⟨c0, cs⟩ : List (Gt K V h)) → t ∈ (Row.kids ⟨c0, cs ++ [(k', c)]⟩ : List (Gt K V h)) := by
    intro t ht
    simp only [Row.kids, List.mem_cons, List.map_append, List.mem_append] at ht ⊢
    tauto
  have m2 : ∀ t, t ∈ (Row.kids ⟨c, (k, d0) :: ds⟩ : List (Gt K V h)) ↔ t = c ∨ t ∈ (Row.kids ⟨d0, ds⟩ : List (Gt K V h)) := by
    intro t
    simp only [Row.kids, List.mem_cons, List.map_cons]
  have m3 : ∀ t, t ∈ (Row.kids ⟨c0, cs ++ [(k', c)]⟩ : List (Gt K V h)) ↔ t = c ∨ t ∈ (Row.kids ⟨c0, cs⟩ : List (Gt K V h)) := by
    intro t
    simp only [Row.kids, List.mem_cons, List.map_append, List.mem_append, List.map_cons, List.map_nil, List.not_mem_nil, or_false]
    tauto
  refine ⟨?_, fun A Z ho => ?_, fun hc1 hc2 => ⟨?_, ?_⟩, ?_, by
    simp only [due_inner, Row.kids, List.map_cons, List.map_append, List.sum_cons, List.sum_append, List.map_nil, List.sum_nil, Option.isNone_none, if_true]
    omega, ⟨?_, ?_⟩, fun s hb => ?_⟩
  · simp [Row.kids, Row.map]
  · have : (Gt.inner x none ⟨c0, cs⟩).erase.seq ++ .inr k' :: (Gt.inner y none ⟨c, (k, d0) :: ds⟩).erase.seq = (Gt.inner x st ⟨c0, cs ++ [(k', c)]⟩).erase.seq ++ .inr k :: (Gt.inner y none ⟨d0, ds⟩).erase.seq := by
      simp [seq_inner, Row.map]
    rw [this]; exact ho
  · exact clean_none fun t ht => clean_st hc1 t (m1 t ht)
  · refine clean_none fun t ht => ?_
    rcases (m2 t).1 ht with rfl | ht
    · exact clean_st hc1 _ ((m3 _).2 (.inl rfl))
    · exact clean_st hc2 t ht
  · simp only [odds_inner, Row.kids, List.map_cons, List.map_append, List.sum_cons, List.sum_append, List.map_nil, List.sum_nil]
    abel
  · rw [erase_inner, occ_inner, Row.map_cs, List.length_map, Row.kids_map]
    refine ⟨⟨h1, h2⟩, fun t ht => ?_⟩
    obtain ⟨u, hu, rfl⟩ := List.mem_map.1 ht
    exact ho1 u (m1 u hu)
  · rw [erase_inner, occ_inner, Row.map_cs, List.length_map, Row.kids_map, List.length_cons]
    refine ⟨⟨h3, h4⟩, fun t ht => ?_⟩
    obtain ⟨u, hu, rfl⟩ := List.mem_map.1 ht
    rcases (m2 u).1 hu with rfl | hu
    · exact ho1 _ ((m3 _).2 (.inl rfl))
    · exact ho2 u hu
  · rintro (hs | hs)
    · obtain ⟨-, u, hu, hs'⟩ := sub_kids hb hs
      rcases (m3 u).1 hu with rfl | hu
      · exact .inr (sub_inner ((m2 _).2 (.inl rfl)) hs')
      · exact .inl (sub_inner hu hs')
    · obtain ⟨-, u, hu, hs⟩ := sub_kids hb hs
      exact .inr (sub_inner ((m2 _).2 (.inr hu)) hs)

theorem swapR_inner {x y : Id} {st : Option Ref} {c0 d0 d1 : Gt K V h} {cs ds : List (K × Gt K V h)} {k k' : K} (h1 : P.min ≤ cs.length + 1) (h2 : cs.length + 1 ≤ P.max) (h3 : P.min ≤ ds.length) (h4 : ds.length ≤ P.max)
    (ho1 : ∀ t ∈ (Row.kids ⟨c0, cs⟩ : List (Gt K V h)), t.erase.Occ P.min P.max) (ho2 : ∀ t ∈ (Row.kids ⟨d0, (k', d1) :: ds⟩ : List (Gt K V h)), t.erase.Occ P.min P.max) :
    Swap P (.inner x none ⟨c0, cs⟩) k (.inner y st ⟨d0, (k', d1) :: ds⟩) (.inner x none ⟨c0, cs ++ [(k, d0)]⟩) k' (.inner y none ⟨d1, ds⟩) := by
  have m2 : ∀ t, t ∈ (Row.kids ⟨d0, (k', d1) :: ds⟩ : List (Gt K V h)) ↔ t = d0 ∨ t ∈ (Row.kids ⟨d1, ds⟩ : List (Gt K V h)) := by
    intro t
    simp only [Row.kids, List.mem_cons, List.map_cons]
  have m3 : ∀ t, t ∈ (Row.kids ⟨c0, cs ++ [(k, d0)]⟩ : List (Gt K V h)) ↔ t = d0 ∨ t ∈ (Row.kids ⟨c0, cs⟩ : List (Gt K V h)) := by
    intro t
    simp only [Row.kids, List.mem_cons, List.map_append, List.mem_append, List.map_cons, List.map_nil, List.not_mem_nil, or_false]
    tauto
  refine ⟨?_, fun A Z ho => ?_, fun hc1 hc2 => ⟨?_, ?_⟩, ?_, by
    simp only [due_inner, Row.kids, List.map_cons, List.map_append, List.sum_cons, List.sum_append, List.map_nil, List.sum_nil, Option.isNone_none, if_true]
    omega, ⟨?_, ?_⟩, fun s hb => ?_⟩
  · simp [Row.kids, Row.map]
  · have : (Gt.inner x none ⟨c0, cs ++ [(k, d0)]⟩).erase.seq ++ .inr k' :: (Gt.inner y none ⟨d1, ds⟩).erase.seq = (Gt.inner x none ⟨c0, cs⟩).erase.seq ++ .inr k :: (Gt.inner y st ⟨d0, (k', d1) :: ds⟩).erase.seq := by
      simp [seq_inner, Row.map]
    rw [this]; exact ho
  · refine clean_none fun t ht => ?_
    rcases (m3 t).1 ht with rfl | ht
    · exact clean_st hc2 _ ((m2 _).2 (.inl rfl))
    · exact clean_st hc1 t ht
  · exact clean_none fun t ht => clean_st hc2 t ((m2 t).2 (.inr ht))
  · simp only [odds_inner, Row.kids, List.map_cons, List.map_append, List.sum_cons, List.sum_append, List.map_nil, List.sum_nil]
    abel
  · rw [erase_inner, occ_inner, Row.map_cs, List.length_map, Row.kids_map, List.length_append, List.length_singleton]
    refine ⟨⟨h1, h2⟩, fun t ht => ?_⟩
    obtain ⟨u, hu, rfl⟩ := List.mem_map.1 ht
    rcases (m3 u).1 hu with rfl | hu
    · exact ho2 _ ((m2 _).2 (.inl rfl))
    · exact ho1 u hu
  · rw [erase_inner, occ_inner, Row.map_cs, List.length_map, Row.kids_map]
    refine ⟨⟨h3, h4⟩, fun t ht => ?_⟩
    obtain ⟨u, hu, rfl⟩ := List.mem_map.1 ht
    exact ho2 u ((m2 u).2 (.inr hu))
  · rintro (hs | hs)
    · obtain ⟨-, u, hu, hs⟩ := sub_kids hb hs
      exact .inl (sub_inner ((m3 _).2 (.inr hu)) hs)
    · obtain ⟨-, u, hu, hs'⟩ := sub_kids hb hs
      rcases (m2 u).1 hu with rfl | hu
      · exact .inl (sub_inner ((m3 _).2 (.inl rfl)) hs')
      · exact .inr (sub_inner hu hs')

theorem ld_cases0 {t : Gt K V 0} (hl : t.ld = true) (hz : t.odds = 0) : ∃ st l, t = .leaf t.id st l := by
  rcases t.cases0 with ⟨i, d, rfl⟩ | ⟨i, st, l, rfl⟩ | ⟨i, o, l, rfl⟩
  · simp at hl
  · exact ⟨st, l, rfl⟩
  · simp at hz

theorem ld_casesS {t : Gt K V (h + 1)} (hl : t.ld = true) (hz : t.odds = 0) : ∃ st r, t = .inner t.id st r := by
  rcases t.casesS with ⟨i, d, rfl⟩ | ⟨i, st, r, rfl⟩ | ⟨i, o, r, rfl⟩
  · simp at hl
  · exact ⟨st, r, rfl⟩
  · rw [odds_odInner] at hz
    simp at hz

theorem unsnoc {α : Type} {l : List α} {n : Nat} (h : l.length = n) (hn : 0 < n) : ∃ a p, l = a ++ [p] ∧ a.length + 1 = n := by
  rcases List.eq_nil_or_concat l with rfl | ⟨a, p, rfl⟩
  · simp at h; omega
  · exact ⟨a, p, by simp, by simpa using h⟩

theorem dirty0 {t : Gt K V 0} {y : Id} (ht : t.Is y none) : ∃ l, t = .leaf y none l := by
  rcases ht.dirty with ⟨-, l, rfl⟩ | ⟨n, e, r, -⟩
  · exact ⟨l, rfl⟩
  · omega

theorem dirtyS {t : Gt K V (h + 1)} {y : Id} (ht : t.Is y none) : ∃ r, t = .inner y none r := by
  rcases ht.dirty with ⟨e, l, -⟩ | ⟨n, e, r, rfl⟩
  · omega
  · cases e
    exact ⟨r, rfl⟩

theorem weak_kids {x : Id} {st : Option Ref} {r : Row K (Gt K V h)} {n : Nat} (hw : (Gt.inner x st r).erase.Weak P.min P.max n) : r.cs.length = n ∧ ∀ c ∈ r.kids, c.erase.Occ P.min P.max := by
  rw [erase_inner, weak_inner, Row.map_cs, List.length_map, Row.kids_map] at hw
  exact ⟨hw.1, fun c hc => hw.2 _ (List.mem_map_of_mem hc)⟩

theorem pair_keys {pp : Id} {st : Option Ref} {pre : Hole K (Gt K V h)} {post : List (K × Gt K V h)} {L Rt L' Rt' : Gt K V h} {k k' : K}
    (hs : Swap P L k Rt L' k' Rt') (ho : Ord P.toCmp (Gt.inner pp st (Row.plug pre L ((k, Rt) :: post))).erase.seq) :
    KeysOK P ((Row.plug pre L' []).cs ++ (k', Rt') :: post) ∧ P.Valid k ∧ P.Valid k' ∧ Ord P.toCmp (L.erase.seq ++ .inr k :: Rt.erase.seq) ∧ Ord P.toCmp (L'.erase.seq ++ .inr k' :: Rt'.erase.seq) := by
  obtain ⟨A, Z, e⟩ := seq_pair (V := V) pp st pre post
  rw [e] at ho
  have h1 := hs.ord _ _ ho
  have h2 := h1
  rw [← e] at h2
  have h3 := h2.keys
  rw [(Row.plug_post pre L' ((k', Rt') :: post)).2] at h3
  exact ⟨h3, ho.2 (.inr k) (by simp), h1.2 (.inr k') (by simp), ho.left.right, h1.left.right⟩

theorem KeysOK.congr {l l' : List (K × Gt K V h)} (hK : KeysOK P l) (e : l'.map Prod.fst = l.map Prod.fst) : KeysOK P l' := by
  have h1 : (l'.map Prod.fst).Pairwise (fun a b => ltb P.cmp a b = true) := by rw [e, List.pairwise_map]; exact hK.1
  refine ⟨List.pairwise_map.1 h1, fun p hp => ?_⟩
  have : p.1 ∈ l.map Prod.fst := e ▸ List.mem_map_of_mem hp
  obtain ⟨q, hq, e⟩ := List.mem_map.1 this
  exact e ▸ hK.2 q hq

theorem plug_keys (pre : Hole K (Gt K V h)) (A B' : Gt K V h) (b : List (K × Gt K V h)) : ((Row.plug pre A []).cs ++ b).map Prod.fst = ((Row.plug pre B' []).cs ++ b).map Prod.fst := by
  rcases pre with _ | ⟨r, k⟩ <;> simp [Row.plug]

/-- Borrowing from the left. -/
theorem lendLeft_run {q : Pos} {pp y : Id} {pre : Hole K (Gt K V h)} {k : K} {post : List (K × Gt K V h)} {L Rt : Gt K V h} {n m : Nat} {a : Int}
    (hl : L.ld = true) (hz : L.odds = 0) (hR : Rt.Is y none) (hm : L.erase.Weak P.min P.max m) (hm1 : P.min < m) (hm2 : m ≤ P.max)
    (hn : Rt.erase.Weak P.min P.max n) (hn1 : P.min ≤ n + 1) (hn2 : n + 1 ≤ P.max) (ha : a = (Row.kidsH pre).length)
    (ho : Ord P.toCmp (Gt.inner pp none (Row.plug pre L ((k, Rt) :: post))).erase.seq)
    (hI : I P w0 T w ρ (bun P q (.inner pp none (Row.plug pre L ((k, Rt) :: post))) + R)) :
    ∃ (w' : World K V) (L' Rt' : Gt K V h) (k' : K), borrowLeft P.cmp P.τ y pp L.id a m w = (.ok (), w') ∧ Swap P L k Rt L' k' Rt' ∧
      I P w0 T w' ρ (bun P q (.inner pp none (Row.plug pre L' ((k', Rt') :: post))) + R) := by
  have hmin : 2 ≤ P.min := by have := P.four; simp only [Par.min]; omega
  cases h with
  | zero =>
    obtain ⟨st, l, e⟩ := ld_cases0 hl hz
    generalize L.id = x at e
    subst e
    obtain ⟨l2, rfl⟩ := dirty0 hR
    rw [erase_leaf, weak_leaf] at hm hn
    obtain ⟨l, p, rfl, hlen⟩ := unsnoc hm (by omega)
    have hs : Swap P (.leaf x st (l ++ [p])) k (.leaf y none l2) (.leaf x none l) p.1 (.leaf y none (p :: l2)) :=
      swapL_leaf (by rintro rfl; simp at hlen; omega) (by omega) (by omega) (by omega) (by omega)
    obtain ⟨hK, hv, hv', hoo, hoo'⟩ := pair_keys hs ho
    have hlf := (hoo'.right.sub (t := (Pt.leaf (p :: l2)).seq) (List.sublist_cons_self _ _)).leaf.1
    obtain ⟨w', e1, h1⟩ := borrowLeft_leaf (n := a) (m := m) hv' (fun q hq => (List.pairwise_cons.1 hlf).1 q hq) (hK.congr (plug_keys _ _ _ _)) ha (by omega) hI
    exact ⟨w', _, _, _, e1, hs, h1⟩
  | succ h =>
    obtain ⟨st, ⟨c0, cs⟩, e⟩ := ld_casesS hl hz
    generalize L.id = x at e
    subst e
    obtain ⟨⟨d0, ds⟩, rfl⟩ := dirtyS hR
    obtain ⟨hm, ho1⟩ := weak_kids hm
    obtain ⟨hn, ho2⟩ := weak_kids hn
    obtain ⟨cs, ⟨k', c⟩, rfl, hlen⟩ := unsnoc hm (by omega)
    simp only at hn
    have hs := swapL_inner (P := P) (x := x) (y := y) (st := st) (k := k) (k' := k') (c0 := c0) (d0 := d0) (c := c) (cs := cs) (ds := ds) (by omega) (by omega) (by omega) (by omega) ho1 ho2
    obtain ⟨hK, hv, hv', hoo, hoo'⟩ := pair_keys hs ho
    have hKr : KeysOK P ((k, d0) :: ds) := (Ord.keys (pp := y) (st := none) (r := ⟨c, (k, d0) :: ds⟩) (hoo'.right.sub (List.sublist_cons_self _ _)))
    obtain ⟨w', e1, h1⟩ := borrowLeft_inner (n := a) (m := m) hv hv' (hKr.gt (l := [])) (hK.congr (plug_keys _ _ _ _)) ha (by omega) hI
    exact ⟨w', _, _, _, e1, hs, h1⟩

/-- Borrowing from the right. -/
theorem lendRight_run {q : Pos} {pp x : Id} {pre : Hole K (Gt K V h)} {k : K} {post : List (K × Gt K V h)} {L Rt : Gt K V h} {n m : Nat} {a : Int}
    (hl : Rt.ld = true) (hz : Rt.odds = 0) (hL : L.Is x none) (hm : Rt.erase.Weak P.min P.max m) (hm1 : P.min < m) (hm2 : m ≤ P.max)
    (hn : L.erase.Weak P.min P.max n) (hn1 : P.min ≤ n + 1) (hn2 : n + 1 ≤ P.max) (ha : a = (Row.kidsH pre).length - 1)
    (ho : Ord P.toCmp (Gt.inner pp none (Row.plug pre L ((k, Rt) :: post))).erase.seq)
    (hI : I P w0 T w ρ (bun P q (.inner pp none (Row.plug pre L ((k, Rt) :: post))) + R)) :
    ∃ (w' : World K V) (L' Rt' : Gt K V h) (k' : K), borrowRight P.cmp P.τ x pp Rt.id a w = (.ok (), w') ∧ Swap P L k Rt L' k' Rt' ∧
      I P w0 T w' ρ (bun P q (.inner pp none (Row.plug pre L' ((k', Rt') :: post))) + R) := by
  have hmin : 2 ≤ P.min := by have := P.four; simp only [Par.min]; omega
  cases h with
  | zero =>
    obtain ⟨st, l2, e⟩ := ld_cases0 hl hz
    generalize Rt.id = y at e
    subst e
    obtain ⟨l, rfl⟩ := dirty0 hL
    rw [erase_leaf, weak_leaf] at hm hn
    rcases l2 with _ | ⟨p, _ | ⟨p', l2⟩⟩
    · simp at hm; omega
    · simp at hm; omega
    · simp only [List.length_cons] at hm
      have hs : Swap P (.leaf x none l) k (.leaf y st (p :: p' :: l2)) (.leaf x none (l ++ [p])) p'.1 (.leaf y none (p' :: l2)) :=
        swapR_leaf (by omega) (by omega) (by omega) (by omega)
      obtain ⟨hK, hv, hv', hoo, hoo'⟩ := pair_keys hs ho
      have hlf := hoo'.left.leaf
      obtain ⟨w', e1, h1⟩ := borrowRight_leaf (n := a) (hlf.2 p (by simp)) hv' (fun q hq => (List.pairwise_append.1 hlf.1).2.2 q hq p (by simp)) hK ha hI
      exact ⟨w', _, _, _, e1, hs, h1⟩
  | succ h =>
    obtain ⟨st, ⟨d0, ds⟩, e⟩ := ld_casesS hl hz
    generalize Rt.id = y at e
    subst e
    obtain ⟨⟨c0, cs⟩, rfl⟩ := dirtyS hL
    obtain ⟨hm, ho2⟩ := weak_kids hm
    obtain ⟨hn, ho1⟩ := weak_kids hn
    rcases ds with _ | ⟨⟨k', d1⟩, ds⟩
    · simp at hm; omega
    · simp only [List.length_cons] at hm hn
      have hs := swapR_inner (P := P) (x := x) (y := y) (st := st) (k := k) (k' := k') (c0 := c0) (d0 := d0) (d1 := d1) (cs := cs) (ds := ds) (by omega) (by omega) (by omega) (by omega) ho1 ho2
      obtain ⟨hK, hv, hv', hoo, hoo'⟩ := pair_keys hs ho
      have hKr : KeysOK P (cs ++ [(k, d0)]) := (Ord.keys (pp := x) (st := none) (r := ⟨c0, cs ++ [(k, d0)]⟩) hoo'.left)
      obtain ⟨w', e1, h1⟩ := borrowRight_inner (n := a) hv hv' hKr.lt hK ha hI
      exact ⟨w', _, _, _, e1, hs, h1⟩

/-- Loaded, clean or dirty. -/
def Gt.Pl {h : Nat} (st : Option Ref) : Gt K V h → Prop
  | Nd.ld _ s _ => s = st
  | _ => False

theorem Gt.Is.pl {t : Gt K V h} {x : Id} (ht : t.Is x none) : t.Pl none := by
  rcases ht.dirty with ⟨rfl, l, rfl⟩ | ⟨n, rfl, r, rfl⟩ <;> rfl

theorem Gt.ld_pl {t : Gt K V h} (hl : t.ld = true) (hz : t.odds = 0) : ∃ st, t.Pl st := by
  cases h with
  | zero => obtain ⟨st, l, e⟩ := ld_cases0 hl hz; exact ⟨st, by rw [e]; rfl⟩
  | succ h => obtain ⟨st, l, e⟩ := ld_casesS hl hz; exact ⟨st, by rw [e]; rfl⟩

theorem pl0 {t : Gt K V 0} {st : Option Ref} (ht : t.Pl st) : ∃ l, t = .leaf t.id st l := by
  rcases t.cases0 with ⟨i, d, rfl⟩ | ⟨i, s, l, rfl⟩ | ⟨i, o, l, rfl⟩
  · exact ht.elim
  · obtain rfl : s = st := ht
    exact ⟨l, rfl⟩
  · exact ht.elim

theorem plS {t : Gt K V (h + 1)} {st : Option Ref} (ht : t.Pl st) : ∃ r, t = .inner t.id st r := by
  rcases t.casesS with ⟨i, d, rfl⟩ | ⟨i, s, l, rfl⟩ | ⟨i, o, l, rfl⟩
  · exact ht.elim
  · obtain rfl : s = st := ht
    exact ⟨l, rfl⟩
  · exact ht.elim

theorem I.kvLenPl {q : Pos} {t : Gt K V h} {st : Option Ref} {m : Nat} (ht : t.Pl st) (hw : t.erase.Weak P.min P.max m) (hI : I P w0 T w ρ (bun P q t + R)) :
    BT.kvLen t.id w = (.ok (m : Int), w) := by
  cases h with
  | zero =>
    obtain ⟨l, e⟩ := pl0 ht
    generalize t.id = x at e ⊢
    subst e
    rw [erase_leaf, weak_leaf] at hw
    rw [← hw, ← leafKv_length]
    exact kvLen_run hI.isLeaf.kv
  | succ h =>
    obtain ⟨r, e⟩ := plS ht
    generalize t.id = x at e ⊢
    subst e
    obtain ⟨hw, -⟩ := weak_kids hw
    have := kvLen_run hI.isInner.kv
    rw [this, ← hw]
    simp [innerKv]

/-- There is always a joint node. -/
theorem join_exists {ca : Bool} {k : K} {st st2 : Option Ref} {L Rt : Gt K V h} (hL : L.Pl st) (hR : Rt.Pl st2) (e : DiskNode K V) : ∃ D, Join ca L.id Rt.id k st e st2 L Rt D := by
  cases h with
  | zero =>
    obtain ⟨l, e1⟩ := pl0 hL
    obtain ⟨l2, e2⟩ := pl0 hR
    generalize L.id = x at e1 ⊢
    generalize Rt.id = y at e2 ⊢
    subst e1 e2
    exact ⟨_, .leaf _ _ _ _ _⟩
  | succ h =>
    obtain ⟨⟨c0, cs⟩, e1⟩ := plS hL
    obtain ⟨⟨d0, ds⟩, e2⟩ := plS hR
    generalize L.id = x at e1 ⊢
    generalize Rt.id = y at e2 ⊢
    subst e1 e2
    exact ⟨_, .inner _ _ _ _ _ _ _⟩

/-- What the joint node is. -/
structure Joint (P : Par K) (x : Id) (L : Gt K V h) (k : K) (Rt D : Gt K V h) : Prop where
  flat : D.erase.flat = L.erase.flat ++ Rt.erase.flat
  ord : ∀ A Z, Ord P.toCmp (A ++ (L.erase.seq ++ .inr k :: Rt.erase.seq) ++ Z) → Ord P.toCmp (A ++ D.erase.seq ++ Z)
  clean : L.Clean → Rt.Clean → D.Clean
  odds : D.odds = L.odds + Rt.odds + {x}
  weak : ∀ n m, L.erase.Weak P.min P.max n → Rt.erase.Weak P.min P.max m → ∃ p, D.erase.Weak P.min P.max p ∧ n + m ≤ p ∧ p ≤ n + m + 1
  sub : ∀ {b : Nat} (s : Gt K V b), b < h → Sub s L ∨ Sub s Rt → Sub s D.calm

/-- If one of the two was dirty. -/
theorem Join.due {ca : Bool} {x y : Id} {k : K} {st st2 : Option Ref} {e : DiskNode K V} {L Rt D : Gt K V h} (hJ : Join ca x y k st e st2 L Rt D) (hs : st = none ∨ st2 = none) :
    D.due ≤ L.due + Rt.due := by
  cases hJ with
  | leaf => rcases hs with rfl | rfl <;> simp [due_leaf, due_odLeaf]
  | inner =>
    rcases hs with rfl | rfl <;>
    · simp only [due_inner, due_odInner, Row.kids, List.map_cons, List.map_append, List.sum_cons, List.sum_append, Option.isNone_none, if_true]
      omega

theorem Join.joint {ca : Bool} {x y : Id} {k : K} {st st2 : Option Ref} {e : DiskNode K V} {L Rt D : Gt K V h} (hJ : Join ca x y k st e st2 L Rt D) : Joint P x L k Rt D := by
  cases hJ with
  | leaf _ _ _ l l2 =>
    refine ⟨rfl, fun A Z ho => ho.sub ?_, fun _ _ => trivial, by simp, fun n m h1 h2 => ⟨n + m, ?_, by omega, by omega⟩, fun s hb => by omega⟩
    · refine List.Sublist.append_right (List.Sublist.append_left ?_ _) _
      simp only [erase_leaf, erase_odLeaf, seq_leaf, List.map_append]
      exact List.Sublist.append_left (List.sublist_cons_self _ _) _
    · rw [erase_leaf, weak_leaf] at h1 h2
      rw [erase_odLeaf, weak_leaf, List.length_append, h1, h2]
  | inner _ _ _ c0 d0 cs ds =>
    have mm : ∀ t, t ∈ (Row.kids ⟨c0, cs ++ (k, d0) :: ds⟩ : List (Gt K V _)) ↔ t ∈ (Row.kids ⟨c0, cs⟩ : List (Gt K V _)) ∨ t ∈ (Row.kids ⟨d0, ds⟩ : List (Gt K V _)) := by
      intro t
      simp only [Row.kids, List.mem_cons, List.map_append, List.mem_append, List.map_cons]
      tauto
    refine ⟨?_, fun A Z ho => ?_, fun h1 h2 => ?_, ?_, fun n m h1 h2 => ?_, fun s hb => ?_⟩
    · simp [Row.kids, Row.map]
    · have : (Gt.odInner x (.old ca st e) ⟨c0, cs ++ (k, d0) :: ds⟩).erase.seq = (Gt.inner x st ⟨c0, cs⟩).erase.seq ++ .inr k :: (Gt.inner y st2 ⟨d0, ds⟩).erase.seq := by
        simp [seq_inner, Row.map]
      rw [this]; exact ho
    · refine (Clean_odInner _ _ _).2 fun t ht => ?_
      rcases (mm t).1 ht with ht | ht
      · exact clean_st h1 t ht
      · exact clean_st h2 t ht
    · simp only [odds_inner, odds_odInner, Row.kids, List.map_cons, List.map_append, List.sum_cons, List.sum_append]
      abel
    · obtain ⟨h1, h1'⟩ := weak_kids h1
      obtain ⟨h2, h2'⟩ := weak_kids h2
      refine ⟨n + m + 1, ?_, by omega, by omega⟩
      rw [erase_odInner, weak_inner, Row.map_cs, List.length_map, Row.kids_map, List.length_append, List.length_cons]
      refine ⟨by simp only at h1 h2; omega, fun t ht => ?_⟩
      obtain ⟨u, hu, rfl⟩ := List.mem_map.1 ht
      rcases (mm u).1 hu with hu | hu
      · exact h1' u hu
      · exact h2' u hu
    · rw [calm_inner]
      rintro (hs | hs)
      · obtain ⟨-, u, hu, hs⟩ := sub_kids hb hs
        exact sub_inner ((mm _).2 (.inl hu)) hs
      · obtain ⟨-, u, hu, hs⟩ := sub_kids hb hs
        exact sub_inner ((mm _).2 (.inr hu)) hs

/-- Where a child is among the keys and items. -/
theorem seq_one (pp : Id) (st : Option Ref) (pre : Hole K (Gt K V h)) (post : List (K × Gt K V h)) : ∃ A Z : List ((K × V) ⊕ K), (∀ (L Rt : Gt K V h) (k : K),
    (Gt.inner pp st (Row.plug pre L ((k, Rt) :: post))).erase.seq = A ++ (L.erase.seq ++ .inr k :: Rt.erase.seq) ++ Z) ∧
    ∀ D : Gt K V h, (Gt.inner pp st (Row.plug pre D post)).erase.seq = A ++ D.erase.seq ++ Z := by
  rcases pre with _ | ⟨r, k'⟩
  · exact ⟨[], (post.map fun p => (p.1, p.2.erase)).flatMap fun p => .inr p.1 :: p.2.seq, fun L Rt k => by simp [seq_inner, Row.plug, Row.map, List.flatMap_map],
      fun D => by simp [seq_inner, Row.plug, Row.map, List.flatMap_map]⟩
  · exact ⟨r.c0.erase.seq ++ (r.cs.map fun p => (p.1, p.2.erase)).flatMap (fun p => .inr p.1 :: p.2.seq) ++ [.inr k'], (post.map fun p => (p.1, p.2.erase)).flatMap fun p => .inr p.1 :: p.2.seq,
      fun L Rt k => by simp [seq_inner, Row.plug, Row.map, List.flatMap_map], fun D => by simp [seq_inner, Row.plug, Row.map, List.flatMap_map]⟩

/-- A sibling is loaded and found wide enough to lend, or not. -/
theorem canLend_run {C : Ctx K V H h} {c : Gt K V h} (hI : I P w0 T w ρ (bun P C.pos c + (C.bun P c.kid + R))) (hz : c.odds = 0) (ho : Ord P.toCmp c.erase.seq)
    (hocc : c.erase.Occ P.min P.max) :
    Res (canLend P.cmp P.τ (some c.id) w)
      (fun o w' => ∃ (g : Gt K V h) (m : Nat), g.ld = true ∧ Sim P c g ∧ g.odds = 0 ∧ g.erase.Weak P.min P.max m ∧ P.min ≤ m ∧ m ≤ P.max ∧
        o = (if P.min < m then some (c.id, (m : Int)) else none) ∧ I P w0 T w' ρ (bun P C.pos g + (C.bun P g.kid + R)))
      (fun e _ => Faulty w0 e) := by
  rw [canLend]
  refine (visit_run true hI hz ho).bind (fun e w h => h.1) ?_
  rintro _ w1 ⟨g, g1, g2, h1⟩
  have hz' : g.odds = 0 := g2.odds.trans hz
  obtain ⟨m, m1, m2, m3⟩ := hocc.weak
  have m1' : g.erase.Weak P.min P.max m := by rw [g2.erase]; exact m1
  obtain ⟨st, hp⟩ := Gt.ld_pl g1 hz'
  have e1 := h1.kvLenPl hp m1'
  rw [g2.id] at e1
  rw [bind_ok e1, getT_bind, h1.min_eq]
  refine Res.ok rfl ⟨g, m, g1, g2, hz', m1', m2, m3, ?_, h1.eq (by rw [g2.kid])⟩
  by_cases hh : P.min < m
  · rw [if_pos hh, if_pos (by omega)]
  · rw [if_neg hh, if_neg (by omega)]

/-- A dirty node `t` under a dirty parent, all else being in order. -/
structure Sit (P : Par K) (w0 : World K V) (T : Tot K V) (R : B K V) (up : Ctx K V H (h + 1)) (pp : Id)
    (pre : Hole K (Gt K V h)) (t : Gt K V h) (post : List (K × Gt K V h)) (w : World K V) : Prop where
  I : BT.I P w0 T w (some (up.rid pp)) (BT.bun P up.pos (.inner pp none (Row.plug pre t post)) + (up.bun P (Gt.inner pp none (Row.plug pre t post)).kid + (slotB {up.rid pp} + R)))
  ord : Ord P.toCmp (up.plug (.inner pp none (Row.plug pre t post))).erase.seq
  clean : (up.plug (.inner pp none (Row.plug pre t post))).Clean
  dirty : up.dirty = up
  up0 : up.odds = 0
  upOcc : up.Occ P.min P.max
  len : up.lo P.min ≤ (Row.kidsH pre).length + post.length ∧ (Row.kidsH pre).length + post.length ≤ P.max
  odds : ∀ c, c ∈ Row.kidsH pre ∨ c ∈ post.map Prod.snd → c.odds = 0
  occ : ∀ c, c ∈ Row.kidsH pre ∨ c ∈ post.map Prod.snd → c.erase.Occ P.min P.max

theorem kidsH_next {α : Type} (pre : Hole K α) (c : α) (k : K) : Row.kidsH (some (Row.plug pre c [], k)) = Row.kidsH pre ++ [c] := by
  rw [Row.kidsH, Row.kids_plug]; rfl

theorem Sit.left {up : Ctx K V H (h + 1)} {pp : Id} {pre : Hole K (Gt K V h)} {c t : Gt K V h} {k : K} {post : List (K × Gt K V h)}
    (hS : Sit P w0 T R up pp (some (Row.plug pre c [], k)) t post w) :
    Res (canLend P.cmp P.τ (some c.id) w)
      (fun o w' => ∃ (g : Gt K V h) (m : Nat), g.ld = true ∧ g.id = c.id ∧ g.odds = 0 ∧ g.erase.Weak P.min P.max m ∧ P.min ≤ m ∧ m ≤ P.max ∧
        o = (if P.min < m then some (c.id, (m : Int)) else none) ∧ Sit P w0 T R up pp (some (Row.plug pre g [], k)) t post w' ∧
        ((up.plug (.inner pp none (Row.plug (some (Row.plug pre g [], k)) t post))).erase = (up.plug (.inner pp none (Row.plug (some (Row.plug pre c [], k)) t post))).erase ∧
        (up.plug (.inner pp none (Row.plug (some (Row.plug pre g [], k)) t post))).due = (up.plug (.inner pp none (Row.plug (some (Row.plug pre c [], k)) t post))).due))
      (fun e _ => Faulty w0 e) := by
  have hi := hS.I
  have ho := hS.ord
  have hc := hS.clean
  have hl := hS.len
  have hk : ∀ x : Gt K V h, Row.kidsH (some (Row.plug pre x [], k)) = Row.kidsH pre ++ [x] := fun x => kidsH_next pre x k
  have hco : c ∈ Row.kidsH (some (Row.plug pre c [], k)) := by rw [hk]; simp
  simp only [← plug_next] at hi ho hc ⊢
  rw [← add_assoc, ctx_down, add_assoc] at hi
  refine (canLend_run hi (hS.odds _ (.inl hco)) (ord_plug (C := .fr pp none pre ((k, t) :: post) up) ho) (hS.occ _ (.inl hco))).mono ?_ fun e w h => h
  rintro o w' ⟨g, m, g1, g2, g3, g4, g5, g6, g7, h1⟩
  have hs := Ctx.sim (.fr pp none pre ((k, t) :: post) up) g2
  have hu : ((Ctx.fr pp none pre ((k, t) :: post) up).plug g).due = ((Ctx.fr pp none pre ((k, t) :: post) up).plug c).due := by
    rw [Ctx.plug_due, Ctx.plug_due, g2.due (hS.odds _ (.inl hco))]
  refine ⟨g, m, g1, g2.id, g3, g4, g5, g6, g7, ⟨?_, ?_, ?_, hS.dirty, hS.up0, hS.upOcc, ?_, ?_, ?_⟩, hs.erase, hu⟩
  · rw [← plug_next, ← add_assoc, ctx_down, add_assoc]; exact h1
  · rw [← plug_next]; exact hs.erase ▸ ho
  · rw [← plug_next]; exact hs.clean hc
  · rw [hk, List.length_append] at hl ⊢; exact hl
  · intro x hx
    rw [hk, List.mem_append, List.mem_singleton] at hx
    rcases hx with (hx | rfl) | hx
    · exact hS.odds x (.inl (by rw [hk]; exact List.mem_append_left _ hx))
    · exact g3
    · exact hS.odds x (.inr hx)
  · intro x hx
    rw [hk, List.mem_append, List.mem_singleton] at hx
    rcases hx with (hx | rfl) | hx
    · exact hS.occ x (.inl (by rw [hk]; exact List.mem_append_left _ hx))
    · exact g4.occ g5 g6
    · exact hS.occ x (.inr hx)

theorem Sit.right {up : Ctx K V H (h + 1)} {pp : Id} {pre : Hole K (Gt K V h)} {c t : Gt K V h} {k : K} {post : List (K × Gt K V h)}
    (hS : Sit P w0 T R up pp pre t ((k, c) :: post) w) :
    Res (canLend P.cmp P.τ (some c.id) w)
      (fun o w' => ∃ (g : Gt K V h) (m : Nat), g.ld = true ∧ g.id = c.id ∧ g.odds = 0 ∧ g.erase.Weak P.min P.max m ∧ P.min ≤ m ∧ m ≤ P.max ∧
        o = (if P.min < m then some (c.id, (m : Int)) else none) ∧ Sit P w0 T R up pp pre t ((k, g) :: post) w' ∧
        ((up.plug (.inner pp none (Row.plug pre t ((k, g) :: post)))).erase = (up.plug (.inner pp none (Row.plug pre t ((k, c) :: post)))).erase ∧
        (up.plug (.inner pp none (Row.plug pre t ((k, g) :: post)))).due = (up.plug (.inner pp none (Row.plug pre t ((k, c) :: post)))).due))
      (fun e _ => Faulty w0 e) := by
  have hi := hS.I
  have ho := hS.ord
  have hc := hS.clean
  have hl := hS.len
  have hco : c ∈ ((k, c) :: post).map Prod.snd := by simp
  simp only [plug_next pre t] at hi ho hc ⊢
  rw [← add_assoc, ctx_down, add_assoc] at hi
  refine (canLend_run hi (hS.odds _ (.inr hco)) (ord_plug (C := .fr pp none (some (Row.plug pre t [], k)) post up) ho) (hS.occ _ (.inr hco))).mono ?_ fun e w h => h
  rintro o w' ⟨g, m, g1, g2, g3, g4, g5, g6, g7, h1⟩
  have hs := Ctx.sim (.fr pp none (some (Row.plug pre t [], k)) post up) g2
  have hu : ((Ctx.fr pp none (some (Row.plug pre t [], k)) post up).plug g).due = ((Ctx.fr pp none (some (Row.plug pre t [], k)) post up).plug c).due := by
    rw [Ctx.plug_due, Ctx.plug_due, g2.due (hS.odds _ (.inr hco))]
  refine ⟨g, m, g1, g2.id, g3, g4, g5, g6, g7, ⟨?_, ?_, ?_, hS.dirty, hS.up0, hS.upOcc, hl, ?_, ?_⟩, hs.erase, hu⟩
  · rw [plug_next pre t, ← add_assoc, ctx_down, add_assoc]; exact h1
  · rw [plug_next pre t]; exact hs.erase ▸ ho
  · rw [plug_next pre t]; exact hs.clean hc
  · intro x hx
    rw [List.map_cons, List.mem_cons] at hx
    rcases hx with hx | rfl | hx
    · exact hS.odds x (.inl hx)
    · exact g3
    · exact hS.odds x (.inr (List.mem_cons_of_mem _ hx))
  · intro x hx
    rw [List.map_cons, List.mem_cons] at hx
    rcases hx with hx | rfl | hx
    · exact hS.occ x (.inl hx)
    · exact g4.occ g5 g6
    · exact hS.occ x (.inr (List.mem_cons_of_mem _ hx))

/-- The nearest child on the left. -/
theorem last_kid {α : Type} (r : Row K α) : ∃ pre c, r = Row.plug pre c [] := by
  rcases r with ⟨c0, cs⟩
  rcases List.eq_nil_or_concat cs with rfl | ⟨l, ⟨k, c⟩, rfl⟩
  · exact ⟨none, c0, rfl⟩
  · exact ⟨some (⟨c0, l⟩, k), c, by simp [Row.plug]⟩

theorem leftSibling_run {q : Pos} {pp : Id} {pre : Hole K (Gt K V h)} {c t : Gt K V h} {k : K} {post : List (K × Gt K V h)} {n : Int}
    (hn : n = (Row.kidsH pre).length) (hI : I P w0 T w ρ (bun P q (.inner pp none (Row.plug (some (Row.plug pre c [], k)) t post)) + R)) :
    leftSibling pp n w = (.ok (some c.id), w) := by
  have hi := hI.isInner
  rw [← plug_next] at hi
  unfold leftSibling
  rw [if_neg (by omega)]
  rcases pre with _ | ⟨r, k'⟩
  · rw [if_pos (by rw [hn]; rfl), getN_bind, hi.left]
    rfl
  · have hlen : (Row.kidsH (some (r, k') : Hole K (Gt K V h))).length = r.cs.length + 1 := by simp [Row.kidsH, Row.kids]
    rw [if_neg (by omega)]
    have := kvChildOk_run hi.kv (n := r.cs.length) (k := k') (c := c.id) (by simp [Row.plug]) 1368
    rw [show n - 1 = (r.cs.length : Int) by omega, bind_ok this]
    rfl

theorem rightSibling_run {q : Pos} {pp : Id} {pre : Hole K (Gt K V h)} {c t : Gt K V h} {k : K} {post : List (K × Gt K V h)} {n : Int}
    (hn : n + 1 = (Row.kidsH pre).length) (hI : I P w0 T w ρ (bun P q (.inner pp none (Row.plug pre t ((k, c) :: post))) + R)) :
    rightSibling pp n w = (.ok (some c.id), w) := by
  have hi := hI.isInner
  unfold rightSibling
  rw [bind_ok (kvLen_run hi.kv)]
  have hlen := length_plug pre t ((k, c) :: post)
  simp only [List.length_cons] at hlen
  have hlen0 := length_plug pre t []
  simp only [List.length_nil] at hlen0
  rw [if_neg (by simp [innerKv, hlen]; omega)]
  have := kvChildOk_run hi.kv (n := (Row.kidsH pre).length) (k := k) (c := c.id) (by
    rw [plug_next, Row.plug]
    simp [hlen0]) 1522
  rw [hn, bind_ok this]
  rfl

theorem rightSibling_none {q : Pos} {pp : Id} {pre : Hole K (Gt K V h)} {t : Gt K V h} {n : Int}
    (hn : n + 1 = (Row.kidsH pre).length) (hI : I P w0 T w ρ (bun P q (.inner pp none (Row.plug pre t [])) + R)) :
    rightSibling pp n w = (.ok none, w) := by
  have hi := hI.isInner
  unfold rightSibling
  rw [bind_ok (kvLen_run hi.kv)]
  have hlen := length_plug pre t []
  simp only [List.length_nil] at hlen
  rw [if_pos (by simp [innerKv, hlen]; omega)]
  rfl

/-- A tree in order again, but for what `od` says, with at most `du` dirty nodes; the subtrees `S` are parts of it. -/
def Bal (P : Par K) (w0 : World K V) (T : Tot K V) (R : B K V) (H : Nat) (fl : List (K × V)) (od : Multiset Id) (du : Nat)
    (S : (b : Nat) → Gt K V b → Prop) (w : World K V) : Prop :=
  ∃ (H' : Nat) (g' : Gt K V H'), H' ≤ H ∧ I P w0 T w (some g'.id) (bun P ⟨none, true⟩ g' + (slotB {g'.id} + R)) ∧ Ord P.toCmp g'.erase.seq ∧ g'.erase.flat = fl ∧
    g'.erase.RootOcc P.min P.max ∧ g'.Clean ∧ (g'.odds = od ∧ g'.due ≤ du) ∧ g'.st = none ∧ ∀ b s, S b s → Sub s g'

theorem Bal.mono {fl fl' : List (K × V)} {od od' : Multiset Id} {du du' : Nat} {S S' : (b : Nat) → Gt K V b → Prop} (hb : Bal P w0 T R H fl od du S w) (h1 : fl = fl') (h2 : od = od')
    (h4 : du ≤ du') (h3 : ∀ b s, S' b s → S b s) : Bal P w0 T R H fl' od' du' S' w := by
  subst h1 h2
  obtain ⟨H', g', a1, a2, a3, a4, a5, a6, a7, a9, a8⟩ := hb
  exact ⟨H', g', a1, a2, a3, a4, a5, a6, ⟨a7.1, a7.2.trans h4⟩, a9, fun b s h => a8 b s (h3 b s h)⟩

/-- Two neighbours under a dirty parent. -/
structure Pair (P : Par K) (up : Ctx K V H (h + 1)) (pp : Id) (pre : Hole K (Gt K V h)) (L : Gt K V h) (k : K) (Rt : Gt K V h) (post : List (K × Gt K V h)) : Prop where
  ord : Ord P.toCmp (up.plug (.inner pp none (Row.plug pre L ((k, Rt) :: post)))).erase.seq
  clean : (up.plug (.inner pp none (Row.plug pre L ((k, Rt) :: post)))).Clean
  dirty : up.dirty = up
  up0 : up.odds = 0
  upOcc : up.Occ P.min P.max
  len : up.lo P.min ≤ (Row.kidsH pre).length + post.length + 1 ∧ (Row.kidsH pre).length + post.length + 1 ≤ P.max
  odds : ∀ c, c ∈ Row.kidsH pre ∨ c ∈ post.map Prod.snd → c.odds = 0
  occ : ∀ c, c ∈ Row.kidsH pre ∨ c ∈ post.map Prod.snd → c.erase.Occ P.min P.max

theorem Sit.pairL {up : Ctx K V H (h + 1)} {pp : Id} {pre : Hole K (Gt K V h)} {c t : Gt K V h} {k : K} {post : List (K × Gt K V h)}
    (hS : Sit P w0 T R up pp pre t ((k, c) :: post) w) : Pair P up pp pre t k c post :=
  ⟨hS.ord, hS.clean, hS.dirty, hS.up0, hS.upOcc, hS.len, fun c hc => hS.odds c (hc.imp_right fun h => List.mem_cons_of_mem _ h),
    fun c hc => hS.occ c (hc.imp_right fun h => List.mem_cons_of_mem _ h)⟩

theorem Sit.pairR {up : Ctx K V H (h + 1)} {pp : Id} {pre : Hole K (Gt K V h)} {c t : Gt K V h} {k : K} {post : List (K × Gt K V h)}
    (hS : Sit P w0 T R up pp (some (Row.plug pre c [], k)) t post w) : Pair P up pp pre c k t post := by
  have hk := kidsH_next pre c k
  refine ⟨?_, ?_, hS.dirty, hS.up0, hS.upOcc, ?_, fun c hc => hS.odds c (hc.imp_left fun h => ?_), fun c hc => hS.occ c (hc.imp_left fun h => ?_)⟩
  · rw [plug_next]; exact hS.ord
  · rw [plug_next]; exact hS.clean
  · have := hS.len
    rw [hk, List.length_append, List.length_singleton] at this
    omega
  · rw [hk]; exact List.mem_append_left _ h
  · rw [hk]; exact List.mem_append_left _ h

theorem sum_zero {α : Type} {f : α → Multiset Id} : ∀ {l : List α}, (∀ c ∈ l, f c = 0) → (l.map f).sum = 0
  | [], _ => rfl
  | a :: l, h => by rw [List.map_cons, List.sum_cons, h a (by simp), sum_zero fun c hc => h c (List.mem_cons_of_mem _ hc), add_zero]

theorem Gt.kid_eq {t t' : Gt K V h} (h1 : t'.id = t.id) (h2 : t'.st = t.st) (h3 : t'.erase.flat = t.erase.flat) : t'.kid = t.kid := by
  rw [Gt.kid, Gt.kid, h1, h2, Gt.cnt, Gt.cnt, Pt.cnt, Pt.cnt, h3]

theorem Pair.swap {up : Ctx K V H (h + 1)} {pp : Id} {pre : Hole K (Gt K V h)} {L Rt L' Rt' : Gt K V h} {k k' : K} {post : List (K × Gt K V h)}
    (hp : Pair P up pp pre L k Rt post) (hs : Swap P L k Rt L' k' Rt')
    (hI : I P w0 T w (some (up.rid pp)) (bun P up.pos (.inner pp none (Row.plug pre L' ((k', Rt') :: post))) + (up.bun P (Gt.inner pp none (Row.plug pre L ((k, Rt) :: post))).kid + (slotB {up.rid pp} + R)))) :
    Bal P w0 T R H (up.plug (.inner pp none (Row.plug pre L ((k, Rt) :: post)))).erase.flat (L.odds + Rt.odds)
      ((up.plug (.inner pp none (Row.plug pre L ((k, Rt) :: post)))).due + min (H - h) 1) (fun b s => b < h ∧ (Sub s L ∨ Sub s Rt)) w := by
  set N := Gt.inner pp none (Row.plug pre L ((k, Rt) :: post)) with hN
  set N' := Gt.inner pp none (Row.plug pre L' ((k', Rt') :: post)) with hN'
  have hfl : N'.erase.flat = N.erase.flat := by
    have := hs.flat
    simp only [hN, hN', erase_inner, flat_inner, Row.kids_map, Row.kids_plug, List.map_append, List.map_cons, List.flatMap_append, List.flatMap_cons]
    rw [← List.append_assoc L'.erase.flat, this, List.append_assoc]
  have hkid : N'.kid = N.kid := Gt.kid_eq rfl rfl hfl
  have mem : ∀ c, c ∈ (Row.plug pre L' ((k', Rt') :: post)).kids → (c ∈ Row.kidsH pre ∨ c ∈ post.map Prod.snd) ∨ c = L' ∨ c = Rt' := by
    intro c
    simp only [Row.kids_plug, List.map_cons, List.mem_append, List.mem_cons]
    tauto
  have hcl := (up.plug_clean N).1 hp.clean
  have hck := clean_st hcl.2
  obtain ⟨cL, cR⟩ := hs.clean (hck L (by simp [Row.kids_plug])) (hck Rt (by simp [Row.kids_plug]))
  refine ⟨H, up.plug N', le_refl _, ?_, ?_, ?_, ?_, ?_, ⟨?_, ?_⟩, up.plug_st hp.dirty rfl, ?_⟩
  · rw [Ctx.plug_id, bun_plug, hkid, add_assoc]; exact hI
  · obtain ⟨A, Z, s1, -⟩ := seq_one pp none pre post
    have ho := hp.ord
    rw [Ctx.plug_seq, s1] at ho
    rw [Ctx.plug_seq, hN', s1]
    have := hs.ord (up.lseq ++ A) (Z ++ up.rseq) (by simpa only [List.append_assoc] using ho)
    simpa only [List.append_assoc] using this
  · rw [Ctx.plug_flat, Ctx.plug_flat, hfl]
  · have hl := length_plug pre L' ((k', Rt') :: post)
    rw [Ctx.plug_occ, hN', erase_inner, Ctx.subOcc_inner, Row.map_cs, List.length_map, hl, List.length_cons, Row.kids_map]
    refine ⟨hp.upOcc, hp.len, fun c hc => ?_⟩
    obtain ⟨u, hu, rfl⟩ := List.mem_map.1 hc
    rcases mem u hu with h1 | rfl | rfl
    · exact hp.occ u h1
    · exact hs.occ.1
    · exact hs.occ.2
  · refine (up.plug_clean N').2 ⟨hcl.1, clean_none fun c hc => ?_⟩
    rcases mem c hc with h1 | rfl | rfl
    · refine hck c ?_
      simp only [Row.kids_plug, List.map_cons, List.mem_append, List.mem_cons]
      tauto
    · exact cL
    · exact cR
  · rw [Ctx.plug_odds, hp.up0, zero_add, hN', odds_inner, Row.kids_plug, List.map_append, List.sum_append, List.map_cons, List.map_cons, List.sum_cons, List.map_cons, List.sum_cons,
      sum_zero fun c hc => hp.odds c (.inl hc), sum_zero fun c hc => hp.odds c (.inr hc), zero_add, add_zero, hs.odds]
  · have := hs.due
    have := up.le
    rw [Ctx.plug_due, Ctx.plug_due, hN, hN', due_inner, due_inner]
    simp only [Row.kids_plug, List.map_cons, List.map_append, List.sum_append, List.sum_cons]
    omega
  · rintro b s ⟨hb, h1⟩
    rcases hs.sub s hb h1 with h1 | h1
    · exact Sub.up up hp.dirty (sub_inner (by simp [Row.kids_plug]) h1)
    · exact Sub.up up hp.dirty (sub_inner (by simp [Row.kids_plug]) h1)

/-- What a node may be short of before it is put right. -/
def Ctx.Short (min n : Nat) : {h : Nat} → Ctx K V H h → Prop
  | _, .top => H = 0 ∨ 1 ≤ n
  | _, .fr _ _ _ _ _ => min ≤ n + 1

/-- The end of a merge: the emptied node is given up, the joint node marked dirty. -/
theorem mergeTail {H' : Nat} {g' : Gt K V H'} {D : Gt K V h} {x y : Id} {st st2 : Option Ref} {e e2 : DiskNode K V} {c : Cell K V} {od : Multiset Id} (hsub : Sub D g')
    (hD : D.Is x (some (.old P.ca st e))) (hy : c.id = y) (hc : c.ref = refOf st2) (ho : Ord P.toCmp g'.erase.seq) (hocc : g'.erase.RootOcc P.min P.max) (hcl : g'.Clean) (hod : g'.odds = od + {x})
    (hI : I P w0 T w (some g'.id) (bun P ⟨none, true⟩ g' + (slotB {g'.id} + ((cellB c + lruB P.ca c.id st2.isNone + ownPage st2 e2) + R)))) :
    ∃ w', (do markNodeToBeDiscarded P.τ y; markNodeDirty P.τ x : M K V Unit) w = (.ok (), w') ∧ ∃ g'' : Gt K V H', I P w0 T w' (some g''.id) (bun P ⟨none, true⟩ g'' + (slotB {g''.id} + R)) ∧
      g''.erase = g'.erase ∧ g''.Clean ∧ (g''.odds = od ∧ g''.due = g'.due) ∧ g''.st = none ∧ ∀ (b : Nat) (s : Gt K V b), Sub s D.calm → Sub s g'' := by
  obtain ⟨Cx, cx1, cx2⟩ := Sub.ctx .top rfl hsub
  simp only [Ctx.plug] at cx2
  subst cx2
  obtain ⟨c1, c2, c3, c4⟩ := hD.calm
  subst hy
  obtain ⟨w1, e1, h1⟩ := (hI.eq (by abel : _ = cellB c + lruB P.ca c.id st2.isNone + ownPage st2 e2 + (bun P ⟨none, true⟩ (Cx.plug D) + (slotB {(Cx.plug D).id} + R)))).markDiscard hc
  rw [bind_ok e1]
  have h2 := ((h1.eq (by rw [add_assoc])).forget).forgetOff
  rw [bun_plug, add_assoc] at h2
  obtain ⟨w2, e3, h3⟩ := h2.calmOld hD
  have hid : (Cx.plug D.calm).id = (Cx.plug D).id := by rw [Ctx.plug_id, Ctx.plug_id, c1.id, hD.id]
  have her : (Cx.plug D.calm).erase = (Cx.plug D).erase := by
    have := Ctx.plug_dirty_erase Cx c2
    rwa [cx1] at this
  refine ⟨w2, e3, Cx.plug D.calm, h3.eq ?_ |> fun h => (hid ▸ h), her, ?_, ⟨?_, by rw [Ctx.plug_due, Ctx.plug_due, hD.calm_due]⟩, Cx.plug_st cx1 c1.st, fun b s hs => Sub.up Cx cx1 hs⟩
  · rw [bun_plug, hD.calm_kid, add_assoc]
  · obtain ⟨k1, k2⟩ := (Ctx.plug_clean _ _).1 hcl
    exact (Ctx.plug_clean _ _).2 ⟨Ctx.clean_dirty cx1 k1 _, c3 k2⟩
  · rw [Ctx.plug_odds, c4, ← add_assoc] at hod
    rw [Ctx.plug_odds]
    exact add_right_cancel hod

theorem merge_run {up : Ctx K V H (h + 1)} {pp : Id} {pre : Hole K (Gt K V h)} {L Rt : Gt K V h} {k : K} {post : List (K × Gt K V h)} {st st2 : Option Ref} {n m : Nat} {a : Int} {checked : Bool} {recur : M K V Unit}
    (hp : Pair P up pp pre L k Rt post) (hL : L.Pl st) (hR : Rt.Pl st2) (hn : L.erase.Weak P.min P.max n) (hm : Rt.erase.Weak P.min P.max m) (h1 : P.min ≤ n + m) (h2 : n + m + 1 ≤ P.max)
    (ha : a = (Row.kidsH pre).length) (hst : st = none ∨ st2 = none)
    (hrec : ∀ {N' : Gt K V (h + 1)} {n' : Nat} {w : World K V} {R : B K V}, N'.Is pp none → N'.erase.Weak P.min P.max n' → up.Short P.min n' → n' ≤ P.max → Ord P.toCmp (up.plug N').erase.seq →
      (up.plug N').Clean → I P w0 T w (some (up.rid pp)) (bun P up.pos N' + (up.bun P N'.kid + (slotB {up.rid pp} + R))) →
      Res (recur w) (fun _ w' => Bal P w0 T R H (up.plug N').erase.flat N'.odds ((up.plug N').due + min (H - (h + 1)) 1) (fun b s => b < h + 1 ∧ Sub s N') w') (fun e _ => Faulty w0 e))
    (hI : I P w0 T w (some (up.rid pp)) (bun P up.pos (.inner pp none (Row.plug pre L ((k, Rt) :: post))) + (up.bun P (Gt.inner pp none (Row.plug pre L ((k, Rt) :: post))).kid + (slotB {up.rid pp} + R)))) :
    Res (merge P.cmp P.τ recur pp L.id Rt.id a (decide (h = 0)) checked w)
      (fun _ w' => Bal P w0 T R H (up.plug (.inner pp none (Row.plug pre L ((k, Rt) :: post)))).erase.flat (L.odds + Rt.odds)
        ((up.plug (.inner pp none (Row.plug pre L ((k, Rt) :: post)))).due + min (H - h) 1) (fun b s => b < h ∧ (Sub s L ∨ Sub s Rt)) w')
      (fun e _ => Faulty w0 e) := by
  set N := Gt.inner pp none (Row.plug pre L ((k, Rt) :: post)) with hN
  obtain ⟨A, Z0, s1, s2⟩ := seq_one pp none pre post
  have ho0 := hp.ord
  have hoN := ord_plug ho0
  rw [s1] at hoN
  have hoM := hoN.left.right
  obtain ⟨D0, hJ0⟩ := join_exists (ca := P.ca) (k := k) hL hR (mkDisk P true 0 (.leaf []))
  obtain ⟨w1, items, e, e2, D, b, Z, c, r1, hJ, hF, c1, c2, i1⟩ := mergeInto_run (checked := checked) hJ0 (hoM.2 (.inr k) (by simp)) hoM ha hI
  obtain ⟨d1, -, -, d4⟩ := hJ.is
  have jt : Joint P L.id L k Rt D := hJ.joint
  obtain ⟨p, p1, p2, p3⟩ := jt.weak n m hn hm
  have hDocc := p1.occ (by omega) (by omega)
  have hcl := (up.plug_clean N).1 hp.clean
  have hck := clean_st hcl.2
  have hDcl : D.Clean := jt.clean (hck L (by simp [Row.kids_plug])) (hck Rt (by simp [Row.kids_plug]))
  have hDord : Ord P.toCmp ((up.lseq ++ A) ++ D.erase.seq ++ (Z0 ++ up.rseq)) := by
    refine jt.ord _ _ ?_
    rw [Ctx.plug_seq, s1] at ho0
    simpa only [List.append_assoc] using ho0
  have hflD : ∀ N', N' = Gt.inner pp none (Row.plug pre D post) → N'.erase.flat = N.erase.flat := by
    rintro _ rfl
    have := jt.flat
    simp only [hN, erase_inner, flat_inner, Row.kids_map, Row.kids_plug, List.map_append, List.map_cons, List.flatMap_append, List.flatMap_cons]
    rw [this, List.append_assoc]
  rw [merge, bind_ok r1]
  have hc := i1.cell
  have hkv : KvIs P.toCmp (w1.node pp).kv (kvl (Row.plug pre L []).cs ++ (k, .node Rt.id) :: kvl post) := hc.body.2.2.2.2
  have hro : (w1.node pp).root = up.pos.root := hc.root
  have hlen0 := length_plug pre L []
  simp only [List.length_nil] at hlen0
  have hwid : ((kvl (Row.plug pre L []).cs ++ (k, .node Rt.id) :: kvl post : List (K × Val V)).length : Int) = ((Row.kidsH pre).length + post.length + 1 : Nat) := by
    rw [List.length_append, List.length_cons, kvl_length, kvl_length, hlen0]
    omega
  rw [bind_ok (kvLen_run hkv), getN_bind, hro, hwid]
  by_cases hcase : up.pos.root && (((Row.kidsH pre).length + post.length + 1 : Nat) : Int) == 1
  · rw [if_pos hcase]
    rw [Bool.and_eq_true, beq_iff_eq] at hcase
    obtain ⟨q1, q2⟩ := hcase
    cases up with
    | fr => simp [Ctx.pos, Pos.child] at q1
    | top =>
      have hpre : Row.kidsH pre = [] := List.eq_nil_of_length_eq_zero (by omega)
      have hpost : post = [] := List.eq_nil_of_length_eq_zero (by omega)
      subst hpost
      rcases pre with _ | ⟨r, k'⟩
      swap
      · simp [Row.kidsH, Row.kids] at hpre
      obtain ⟨w2, e3, i2⟩ := shrinkRoot_run (R := R) hF (i1.eq (by
        simp only [besides, Row.kidsH, List.map_nil, List.nil_append, kidsB_nil, add_zero, Ctx.bun, zero_add, Ctx.rid, Ctx.pos]
        rfl))
      rw [bind_ok e3]
      have hidD : D.id = L.id := d4
      obtain ⟨w3, e4, g'', i3, t1, t2, t3, t5, t4⟩ := mergeTail (g' := D) (od := L.odds + Rt.odds) (sub_self D) d1 c1 c2 (by simpa [Ctx.lseq, Ctx.rseq] using hDord.left.right) (p1.rootOcc (by have := P.min_pos; omega) (by omega)) hDcl jt.odds (hidD ▸ i2)
      refine Res.ok e4 ⟨h, g'', by omega, i3, ?_, ?_, ?_, t2, ⟨t3.1, ?_⟩, t5, fun b s hs => t4 b s (jt.sub s hs.1 hs.2)⟩
      rotate_left 3
      · have := hJ.due hst
        rw [t3.2, Ctx.plug, hN, due_inner]
        simp only [Row.kids_plug, List.map_cons, List.map_append, List.sum_append, List.sum_cons]
        omega
      · rw [t1]; exact hDord.left.right
      · rw [t1, jt.flat]
        simp [hN, Ctx.plug, Row.plug, Row.kids]
      · rw [t1]; exact p1.rootOcc (by have := P.min_pos; omega) (by omega)
  · rw [if_neg hcase]
    obtain ⟨w2, e3, i2⟩ := dropSep_run (n := a) rfl d4 hF ha i1
    simp only [bind_assoc_run]
    rw [bind_ok e3]
    have hl := length_plug pre D post
    set N' := Gt.inner pp none (Row.plug pre D post) with hN'
    have hkid : N'.kid = N.kid := Gt.kid_eq rfl rfl (hflD N' rfl)
    have hlen := hp.len
    have mem : ∀ c, c ∈ (Row.plug pre D post).kids → (c ∈ Row.kidsH pre ∨ c ∈ post.map Prod.snd) ∨ c = D := by
      intro c
      simp only [Row.kids_plug, List.mem_append, List.mem_cons]
      tauto
    have hodN : N'.odds = L.odds + Rt.odds + {L.id} := by
      rw [hN', odds_inner, Row.kids_plug, List.map_append, List.sum_append, List.map_cons, List.sum_cons, sum_zero fun c hc => hp.odds c (.inl hc), sum_zero fun c hc => hp.odds c (.inr hc), zero_add, add_zero, jt.odds]
    have hdN : (up.plug N').due ≤ (up.plug N).due := by
      have := hJ.due hst
      rw [Ctx.plug_due, Ctx.plug_due, hN, hN', due_inner, due_inner]
      simp only [Row.kids_plug, List.map_cons, List.map_append, List.sum_append, List.sum_cons]
      omega
    have hle := up.le
    refine (hrec (N' := N') (n' := (Row.kidsH pre).length + post.length) (R := (cellB c + lruB P.ca c.id st2.isNone + ownPage st2 e2) + R) ⟨rfl, rfl, rfl⟩ ?_ ?_ (by omega) ?_ ?_ (i2.eq ?_)).bind (fun e w h => h) ?_
    · rw [hN', erase_inner, weak_inner, Row.map_cs, List.length_map, hl, Row.kids_map]
      refine ⟨rfl, fun c hc => ?_⟩
      obtain ⟨u, hu, rfl⟩ := List.mem_map.1 hc
      rcases mem u hu with h1 | rfl
      · exact hp.occ u h1
      · exact hDocc
    · cases up with
      | top =>
        right
        simp only [Ctx.pos, Bool.true_and, beq_iff_eq] at hcase
        omega
      | fr =>
        simp only [Ctx.lo] at hlen
        simp only [Ctx.Short]
        omega
    · rw [Ctx.plug_seq, hN', s2]
      simpa only [List.append_assoc] using hDord
    · refine (up.plug_clean N').2 ⟨hcl.1, clean_none fun c hc => ?_⟩
      rcases mem c hc with h1 | rfl
      · refine hck c ?_
        simp only [Row.kids_plug, List.map_cons, List.mem_append, List.mem_cons]
        tauto
      · exact hDcl
    · rw [hkid]; abel
    · rintro _ w3 ⟨H', g', a1, a2, a3, a4, a5, a6, a7, -, a8⟩
      obtain ⟨w4, e4, g'', i3, t1, t2, t3, t5, t4⟩ := mergeTail (od := L.odds + Rt.odds) (a8 h D ⟨by omega, sub_inner (by simp [Row.kids_plug]) (sub_self D)⟩) d1 c1 c2 a3 a5 a6 (by rw [a7.1, hodN]) a2
      refine Res.ok e4 ⟨H', g'', a1, i3, by rw [t1]; exact a3, ?_, by rw [t1]; exact a5, t2, ⟨t3.1, by rw [t3.2]; have := a7.2; omega⟩, t5, fun b s hs => t4 b s (jt.sub s hs.1 hs.2)⟩
      rw [t1, a4, Ctx.plug_flat, Ctx.plug_flat, hflD N' rfl]

theorem zero_sum {α : Type} {f : α → Multiset Id} : ∀ {l : List α}, (l.map f).sum = 0 → ∀ c ∈ l, f c = 0
  | [], _, c, hc => by simp at hc
  | a :: l, h, c, hc => by
      rw [List.map_cons, List.sum_cons] at h
      rcases List.mem_cons.1 hc with rfl | hc
      · exact Multiset.le_zero.1 (h ▸ Multiset.le_add_right _ _)
      · exact zero_sum (Multiset.le_zero.1 (h ▸ Multiset.le_add_left _ _)) c hc

theorem I.fields {q : Pos} {t : Gt K V h} {st : Option Ref} (ht : t.Pl st) (hI : I P w0 T w ρ (bun P q t + R)) :
    (w.node t.id).root = q.root ∧ (w.node t.id).parent = q.parent ∧ (w.node t.id).leaf = decide (h = 0) := by
  cases h with
  | zero =>
    obtain ⟨l, e⟩ := pl0 ht
    generalize t.id = x at e ⊢
    subst e
    exact ⟨hI.isLeaf.root, hI.isLeaf.parent, hI.isLeaf.leaf⟩
  | succ h =>
    obtain ⟨l, e⟩ := plS ht
    generalize t.id = x at e ⊢
    subst e
    exact ⟨hI.isInner.root, hI.isInner.parent, hI.isInner.leaf⟩

/-- Neither sibling lends, or the right one does. -/
theorem rightPhase {up : Ctx K V H (h + 1)} {pp x : Id} {pre : Hole K (Gt K V h)} {t : Gt K V h} {post : List (K × Gt K V h)} {n : Nat} {a : Int} {recur : M K V Unit} {left : Option Id}
    (hS : Sit P w0 T R up pp pre t post w) (ht : t.Is x none) (hn : t.erase.Weak P.min P.max n) (hn1 : n + 1 = P.min) (ha : a + 1 = (Row.kidsH pre).length)
    (hleft : (pre = none ∧ left = none) ∨ ∃ pre' g k, pre = some (Row.plug pre' g [], k) ∧ left = some g.id ∧ g.ld = true ∧ g.odds = 0 ∧ g.erase.Weak P.min P.max P.min)
    (hrec : ∀ {N' : Gt K V (h + 1)} {n' : Nat} {w : World K V} {R : B K V}, N'.Is pp none → N'.erase.Weak P.min P.max n' → up.Short P.min n' → n' ≤ P.max → Ord P.toCmp (up.plug N').erase.seq →
      (up.plug N').Clean → I P w0 T w (some (up.rid pp)) (bun P up.pos N' + (up.bun P N'.kid + (slotB {up.rid pp} + R))) →
      Res (recur w) (fun _ w' => Bal P w0 T R H (up.plug N').erase.flat N'.odds ((up.plug N').due + min (H - (h + 1)) 1) (fun b s => b < h + 1 ∧ Sub s N') w') (fun e _ => Faulty w0 e)) :
    Res ((do
              let right ← rightSibling pp a
              match ← canLend P.cmp P.τ right with
              | some (sib, _) => borrowRight P.cmp P.τ x pp sib a
              | none =>
                  match left, right with
                  | some sib, _ => merge P.cmp P.τ recur pp sib x a (decide (h = 0)) false
                  | none, some sib => merge P.cmp P.τ recur pp x sib (a + 1) (decide (h = 0)) true
                  | none, none => M.throw (.logic 1864) : M K V Unit) w)
      (fun _ w' => Bal P w0 T R H (up.plug (.inner pp none (Row.plug pre t post))).erase.flat t.odds ((up.plug (.inner pp none (Row.plug pre t post))).due + min (H - h) 1) (fun b s => b < h ∧ Sub s t) w')
      (fun e _ => Faulty w0 e) := by
  have hmx : 2 * P.min = P.max := P.even
  have hid : t.id = x := ht.id
  -- merging with the left sibling
  have mergeLeft : ∀ {post' : List (K × Gt K V h)} {w' : World K V}, Sit P w0 T R up pp pre t post' w' → ∀ {pre' g k}, pre = some (Row.plug pre' g [], k) → g.ld = true → g.odds = 0 → g.erase.Weak P.min P.max P.min →
      Res (merge P.cmp P.τ recur pp g.id x a (decide (h = 0)) false w')
        (fun _ w' => Bal P w0 T R H (up.plug (.inner pp none (Row.plug pre t post'))).erase.flat t.odds ((up.plug (.inner pp none (Row.plug pre t post'))).due + min (H - h) 1) (fun b s => b < h ∧ Sub s t) w') (fun e _ => Faulty w0 e) := by
    intro post' w' hS pre' g k e1 g1 g2 g3
    subst e1
    obtain ⟨st, hg⟩ := Gt.ld_pl g1 g2
    have hi := hS.I
    rw [← plug_next] at hi
    rw [kidsH_next, List.length_append, List.length_singleton] at ha
    have := merge_run (P := P) (a := a) (checked := false) (recur := recur) hS.pairR hg ht.pl g3 hn (by omega) (by omega) (by omega) (.inr rfl) hrec hi
    rw [hid] at this
    refine this.mono (fun _ w h => h.mono (by rw [plug_next]) (by rw [g2, zero_add]) (by rw [plug_next]) fun b s hs => ⟨hs.1, .inr hs.2⟩) fun _ _ h => h
  rcases post with _ | ⟨⟨k2, c⟩, post⟩
  · rw [bind_ok (rightSibling_none ha hS.I), canLend, pure_bind_run]
    rcases hleft with ⟨rfl, rfl⟩ | ⟨pre', g, k, e1, rfl, g1, g2, g3⟩
    · have h1 := hS.len.1
      have : up.lo P.min ≠ 0 := by cases up <;> simp only [Ctx.lo] <;> omega
      simp [Row.kidsH] at h1
      omega
    · exact mergeLeft hS e1 g1 g2 g3
  · rw [bind_ok (rightSibling_run ha hS.I)]
    refine hS.right.bind (fun e w h => h) ?_
    rintro o w1 ⟨g2, m, b1, b2, b3, b4, b5, b6, b7, hS2, hfl⟩
    by_cases hm : P.min < m
    · rw [if_pos hm] at b7
      subst b7
      simp only
      obtain ⟨w', L', Rt', k', e3, hs, i3⟩ := lendRight_run (a := a) b1 b3 ht b4 hm b6 hn (by omega) (by omega) (by omega) (ord_plug hS2.ord) hS2.I
      rw [b2] at e3
      refine Res.ok e3 ?_
      exact (hS2.pairL.swap hs i3).mono (by rw [hfl.1]) (by rw [b3, add_zero]) (by rw [hfl.2]) fun b s hs => ⟨hs.1, .inl hs.2⟩
    · rw [if_neg hm] at b7
      subst b7
      have hmm : m = P.min := by omega
      subst hmm
      rcases hleft with ⟨rfl, rfl⟩ | ⟨pre', g, k, e1, rfl, g1, g3, g4⟩
      · simp only
        obtain ⟨st, hg⟩ := Gt.ld_pl b1 b3
        have := merge_run (P := P) (a := a + 1) (checked := true) (recur := recur) hS2.pairL ht.pl hg hn b4 (by omega) (by omega) ha (.inl rfl) hrec hS2.I
        rw [hid, b2] at this
        exact this.mono (fun _ w h => h.mono (by rw [hfl.1]) (by rw [b3, add_zero]) (by rw [hfl.2]) fun b s hs => ⟨hs.1, .inl hs.2⟩) fun _ _ h => h
      · simp only
        exact (mergeLeft hS2 e1 g1 g3 g4).mono (fun _ w h => h.mono (by rw [hfl.1]) rfl (by rw [hfl.2]) fun _ _ h => h) fun _ _ h => h

/-- `rebalanceHere`: the tree is in order afterwards, with the same items. -/
theorem rebalance_run (fuel : Nat) : ∀ {h : Nat} (C : Ctx K V H h) {t : Gt K V h} {x : Id} {n : Nat} {w : World K V} {R : B K V}, H < fuel + h → C.dirty = C → t.Is x none → C.odds = 0 → C.Occ P.min P.max →
    t.erase.Weak P.min P.max n → C.Short P.min n → n ≤ P.max → Ord P.toCmp (C.plug t).erase.seq → (C.plug t).Clean →
    I P w0 T w (some (C.rid x)) (bun P C.pos t + (C.bun P t.kid + (slotB {C.rid x} + R))) →
    Res (rebalanceHere P.cmp P.τ fuel x C.stack w) (fun _ w' => Bal P w0 T R H (C.plug t).erase.flat t.odds ((C.plug t).due + min (H - h) 1) (fun b s => b < h ∧ Sub s t) w') (fun e _ => Faulty w0 e) := by
  induction fuel with
  | zero => intro h C t x n w R hf; have := C.le; omega
  | succ fuel ih =>
    intro h C t x n w R hf hd ht hz hocc hn hsh hmx ho hc hI
    have hid := ht.id
    obtain ⟨f1, f2, f3⟩ := hI.fields ht.pl
    have hlen := hI.kvLenPl ht.pl hn
    rw [hid] at f1 f2 f3 hlen
    rw [rebalanceHere, getN_bind, f1]
    cases C with
    | top =>
      rw [Ctx.pos, if_pos rfl]
      refine Res.ok rfl ⟨H, t, le_refl _, ?_, ho, rfl, hn.rootOcc hsh hmx, hc, ⟨rfl, Nat.le_add_right _ _⟩, ht.st, fun b s hs => hs.2⟩
      rw [hid]
      simpa only [Ctx.rid, Ctx.pos, Ctx.bun, zero_add] using hI
    | fr pp st pre post up =>
      obtain ⟨rfl, hd'⟩ := Ctx.dirty_fr.1 hd
      clear hd
      have hd := hd'
      rw [Ctx.pos_fr, if_neg (by simp [Pos.child]), bind_ok hlen, getT_bind, hI.min_eq]
      simp only [Ctx.Short] at hsh
      by_cases hge : P.min ≤ n
      · rw [if_pos (by omega)]
        refine Res.ok rfl ⟨H, _, le_refl _, ?_, ho, rfl, ?_, hc, ⟨?_, Nat.le_add_right _ _⟩, Ctx.plug_st _ (Ctx.dirty_fr.2 ⟨rfl, hd⟩) ht.st, fun b s hs => ?_⟩
        · rw [Ctx.plug_id, hid, bun_plug, add_assoc]; exact hI
        · exact (Ctx.plug_occ _ _).2 ⟨hocc, hn.occ hge hmx⟩
        · rw [Ctx.plug_odds, hz, zero_add]
        · exact Sub.up (Ctx.fr pp none pre post up) (Ctx.dirty_fr.2 ⟨rfl, hd⟩) hs.2
      · rw [if_neg (by omega), f2, Ctx.pos_fr]
        simp only [Pos.child, deref_some_bind, Ctx.stack, List.head?_cons, List.tail_cons, f3]
        simp only [Ctx.odds] at hz
        have z3 : up.odds = 0 := Multiset.le_zero.1 (hz ▸ Multiset.le_add_left _ _)
        have z12 := Multiset.le_zero.1 (hz ▸ Multiset.le_add_right _ up.odds)
        have z1 := Multiset.le_zero.1 (z12 ▸ Multiset.le_add_right ((Row.kidsH pre).map Gt.odds).sum _)
        have z2 := Multiset.le_zero.1 (z12 ▸ Multiset.le_add_left _ ((Row.kidsH pre).map Gt.odds).sum)
        have hS : Sit P w0 T R up pp pre t post w := by
          refine ⟨?_, ho, hc, hd, z3, hocc.2.2, hocc.2.1, ?_, fun c hc => hocc.1 c (List.mem_append.2 hc)⟩
          · rw [← add_assoc, ctx_down, add_assoc]; exact hI
          · rintro c (hc | hc)
            · exact zero_sum z1 c hc
            · obtain ⟨p, hp, rfl⟩ := List.mem_map.1 hc
              exact zero_sum z2 p hp
        have hrec : ∀ {N' : Gt K V (h + 1)} {n' : Nat} {w : World K V} {R : B K V}, N'.Is pp none → N'.erase.Weak P.min P.max n' → up.Short P.min n' → n' ≤ P.max → Ord P.toCmp (up.plug N').erase.seq →
            (up.plug N').Clean → I P w0 T w (some (up.rid pp)) (bun P up.pos N' + (up.bun P N'.kid + (slotB {up.rid pp} + R))) →
            Res (rebalanceHere P.cmp P.τ fuel pp up.stack w) (fun _ w' => Bal P w0 T R H (up.plug N').erase.flat N'.odds ((up.plug N').due + min (H - (h + 1)) 1) (fun b s => b < h + 1 ∧ Sub s N') w') (fun e _ => Faulty w0 e) :=
          fun a1 a2 a3 a4 a5 a6 a7 => ih up (by omega) hd a1 z3 hocc.2.2 a2 a3 a4 a5 a6 a7
        rcases pre with _ | ⟨r, k⟩
        · have hl : leftSibling (K := K) (V := V) pp ((Row.kidsH (none : Hole K (Gt K V h))).length - 1 : Int) w = (.ok none, w) := by
            simp [leftSibling, Row.kidsH]
          rw [bind_ok hl, canLend, pure_bind_run]
          exact rightPhase hS ht hn (by omega) (by simp) (.inl ⟨rfl, rfl⟩) hrec
        · obtain ⟨pre, c, rfl⟩ := last_kid r
          have hk := kidsH_next pre c k
          rw [bind_ok (leftSibling_run (by rw [hk, List.length_append, List.length_singleton]; omega) hS.I)]
          refine hS.left.bind (fun e w h => h) ?_
          rintro o w1 ⟨g, m, b1, b2, b3, b4, b5, b6, b7, hS2, hfl⟩
          have hk2 := kidsH_next pre g k
          have hcount : (Row.kidsH (some (Row.plug pre c [], k))).length = (Row.kidsH pre).length + 1 := by rw [hk, List.length_append, List.length_singleton]
          have hcount2 : (Row.kidsH (some (Row.plug pre g [], k))).length = (Row.kidsH pre).length + 1 := by rw [hk2, List.length_append, List.length_singleton]
          by_cases hm : P.min < m
          · rw [if_pos hm] at b7
            subst b7
            simp only
            have hi := hS2.I
            have ho2 := ord_plug hS2.ord
            rw [← plug_next] at hi ho2
            have hmx' : 2 * P.min = P.max := P.even
            obtain ⟨w', L', Rt', k', e3, hs, i3⟩ := lendLeft_run (a := ((Row.kidsH (some (Row.plug pre c [], k))).length - 1 : Int)) b1 b3 ht b4 hm b6 hn (by omega) (by omega) (by omega) ho2 hi
            rw [b2] at e3
            refine Res.ok e3 ?_
            exact (hS2.pairR.swap hs i3).mono (by rw [plug_next, hfl.1]; rfl) (by rw [b3, zero_add]) (by rw [plug_next, hfl.2]; rfl) fun b s hs => ⟨hs.1, .inr hs.2⟩
          · rw [if_neg hm] at b7
            subst b7
            have hmm : m = P.min := by omega
            subst hmm
            simp only
            rw [← b2]
            refine (rightPhase hS2 ht hn (by omega) (by omega) (.inr ⟨pre, g, k, rfl, rfl, b1, b3, b4⟩) hrec).mono (fun _ w h => h.mono (by rw [hfl.1]; rfl) rfl (by rw [hfl.2]; rfl) fun _ _ h => h) fun _ _ h => h

/-- The item with the key, and what is left without it. -/
theorem split_present {l : List (K × V)} (hs : Spec.Sorted P.cmp l) (hv : AllValid P.Valid l) {key : K} (hk : P.Valid key) (hh : has P.cmp key l = true) :
    ∃ a p b, l = a ++ p :: b ∧ l.filter (fun p => !eqb P.cmp key p.1) = a ++ b := by
  obtain ⟨p, hp, he⟩ := has_iff.1 hh
  obtain ⟨a, b, rfl⟩ := List.append_of_mem hp
  exact ⟨a, p, b, rfl, (mid_eq P.law hv hs hk he).2.2.2.1⟩

/-- How a call ends that deletes. If it is `safe`, an error other than one returned with `ok` means that nothing has changed. -/
def DelPost (P : Par K) (w0 : World K V) (T : Tot K V) (R : B K V) (g : Gt K V H) (op : Op K V) (safe : Bool)
    (r : Out (Ans K V × Option Err) × World K V) : Prop :=
  Res r
    (fun a w' => (AgreesE P.cmp op a (stepE P.cmp g.erase.flat op).1 ∧ Now P w0 T R g (opDue H op) (stepE P.cmp g.erase.flat op).2 w' ∧
      ((stepE P.cmp g.erase.flat op).1 ≠ some (.done true) → Same P w0 T R g w')) ∨ ∃ e, a = (.done true, some e) ∧ Faulty w0 e ∧ (stepE P.cmp g.erase.flat op).1 = some (.done true))
    (fun e w' => (Faulty w0 e ∧ (safe = true → Same P w0 T R g w')) ∨ (((stepE P.cmp g.erase.flat op).1 = none ∧ Refused P.cmp op e) ∧ Same P w0 T R g w'))

/-- An item has gone from a leaf. -/
theorem Rest.shrink {g : Gt K V H} {w1 w2 : World K V} (hr : Rest P w0 T R g w) {C : Ctx K V H 0} {i : Id} {st : Option Ref} {a b : List (K × V)} {p : K × V} {fuel : Nat}
    (hf : H + P.max < fuel) (ha : AtLeaf P w0 T (some g.id) (slotB {g.id} + R) g C i st (a ++ p :: b) w1)
    (hI : BT.I P w0 T w2 (some g.id) (cellB (mkCell P C.pos i st (.leaf (a ++ p :: b).length (a ++ b))) + lruB P.ca i st.isNone + ownPage st (mkDisk P C.pos.root (a ++ p :: b).length (.leaf (a ++ p :: b))) +
      (C.bun P (Gt.leaf i st (a ++ p :: b)).kid + (slotB {g.id} + R)))) :
    Res (afterDelete P.cmp P.τ fuel i C.stack w2)
      (fun _ w' => ∃ (H' : Nat) (g' : Gt K V H'), H' ≤ H + 1 ∧ g'.erase.flat = C.lflat ++ (a ++ b) ++ C.rflat ∧ (g'.st = none ∧ g'.due ≤ g.due + (H + 1 + min H 1)) ∧ Rest P w0 T R g' w') (fun e _ => Faulty w0 e) := by
  obtain ⟨hs, -⟩ := ha
  have hue := leaf_due (l' := a ++ b) hs hr.odds
  have hid : C.rid i = g.id := by rw [← hs.id, Ctx.plug_id]; rfl
  have hz := hr.odds
  have hc := hr.occ
  have ho := hr.ord
  have hcl := hs.clean hr.clean
  rw [← hs.odds, Ctx.plug_odds, odds_leaf, add_zero] at hz
  rw [← hs.erase, Ctx.plug_occ] at hc
  rw [← hs.erase, Ctx.plug_seq, erase_leaf, seq_leaf] at ho
  rw [Ctx.plug_clean] at hcl
  rw [afterDelete]
  obtain ⟨w3, e3, h3⟩ := hI.markDirty (c := mkCell P C.pos i st (.leaf (a ++ p :: b).length (a ++ b))) rfl
  have e3' : markNodeDirty P.τ i w2 = (.ok (), w3) := e3
  rw [bind_ok e3']
  obtain ⟨w4, e4, h4⟩ := updateLeaf_run C (i := i) (st := none) (l := a ++ b) (n := (a ++ p :: b).length) (s := st) (b := true) (e := mkDisk P true 0 (.leaf [])) (fuel := fuel) hf hc.1.slim (h3.eq (by
    rw [ownPage_none, add_zero]; rfl)) (by simp)
  rw [bind_ok e4, ← Ctx.dirty_stack]
  have hlen : (a ++ p :: b).length = (a ++ b).length + 1 := by simp; omega
  have hocc := hc.2
  rw [erase_leaf] at hocc
  refine (rebalance_run (P := P) (w0 := w0) (T := T) (R := R) (t := .leaf i none (a ++ b)) (n := (a ++ b).length) fuel C.dirty (by omega) (Ctx.dirty_dirty _) ⟨rfl, rfl, rfl⟩ (by rw [Ctx.dirty_odds, hz]) (Ctx.dirty_occ hc.1)
    (by rw [erase_leaf, weak_leaf]) ?_ ?_ ?_ ?_ ?_).mono ?_ fun _ _ h => h
  · cases C with
    | top => exact .inl rfl
    | fr => rw [Ctx.SubOcc, occ_leaf] at hocc; simp only [Ctx.dirty, Ctx.Short]; omega
  · cases C with
    | top => rw [Ctx.SubOcc, rootOcc_leaf] at hocc; omega
    | fr => rw [Ctx.SubOcc, occ_leaf] at hocc; omega
  · rw [Ctx.plug_seq, Ctx.dirty_lseq, Ctx.dirty_rseq, erase_leaf, seq_leaf]
    refine ho.sub (List.Sublist.append_right (List.Sublist.append_left ?_ _) _)
    exact List.Sublist.map _ (List.Sublist.append_left (List.sublist_cons_self _ _) _)
  · rw [Ctx.plug_clean]
    exact ⟨Ctx.dirty_clean hcl.1 _, by simp⟩
  · rw [Ctx.dirty_rid, hid, Ctx.dirty_pos]
    exact h4
  · rintro _ w5 ⟨H', g', t1, t2, t3, t4, t5, t6, t7, t8, -⟩
    refine ⟨H', g', by omega, ?_, ⟨t8, by have := t7.2; omega⟩, ⟨t2, t6, ?_, t5, t3⟩⟩
    · rw [t4, Ctx.plug_flat, Ctx.dirty_lflat, Ctx.dirty_rflat, erase_leaf, flat_leaf]
    · rw [t7.1, odds_leaf]

theorem Res.attempt {α : Type} {m : M K V α} {Q : α → World K V → Prop} {E : Err → World K V → Prop} (h : Res (m w) Q E) :
    Res (M.attempt m w) (fun r w' => match r with | .ok a => Q a w' | .error e => E e w') (fun _ _ => False) := by
  unfold M.attempt
  rcases hm : m w with ⟨_ | _ | _, w'⟩ <;> rw [hm] at h <;> simp_all [Res]

/-- `DeleteByKey` -/
theorem deleteByKey_run {g : Gt K V H} (hr : Rest P w0 T R g w) {fuel : Nat} (hf : H + P.max + 1 < fuel) (key : K) :
    DelPost P w0 T R g (.deleteByKey key) true (step P.cmp P.τ fuel (.deleteByKey key) w) := by
  simp only [step, deleteByKey, bind_assoc_run, DelPost, stepE, Op.key?]
  rw [bind_ok hr.root]
  refine (hr.byKey true key (by omega)).bind ?_ ?_
  · rintro e w' ⟨h1 | h1, h2⟩
    · exact .inl ⟨h1, fun _ => h2⟩
    · exact .inr ⟨⟨by simp [h1.1], key, rfl, h1.2⟩, h2⟩
  · rintro x w' ⟨C, i, st, l, rfl, hfit, hv, h1⟩
    have hsame := hr.atLeaf h1
    have hfl := h1.flat
    obtain ⟨hs, hvl⟩ := h1.ord hr.ord
    have hkv := h1.2.isLeaf.kv
    obtain ⟨tr, ht1, ht2, ht3⟩ := hkv
    dsimp only
    rw [bind_ok (kvOf_run ht1)]
    have hset : setKv (K := K) (V := V) i tr w' = (.ok (), w') := by
      show (Out.ok (), ({ w' with node := upd w'.node i { w'.node i with kv := some tr } } : World K V)) = _
      have : upd w'.node i { w'.node i with kv := some tr } = w'.node := by
        funext j
        by_cases hj : j = i
        · subst hj; rw [upd_same, ← ht1]
        · exact upd_ne _ _ hj
      rw [this]
    by_cases hk : P.Valid key
    · obtain ⟨t', p1, p2, p3, p4⟩ := LLRB.Tree.deleteByKey_spec P.law ht2 hk
      have hval := hfl ▸ hr.ord.flat.2
      have hhas : has P.cmp key g.erase.flat = has P.cmp key l := by
        rw [hfl]; exact around_has P.law hk hval (hfit hk).lt (hfit hk).gt
      rw [p1, hr.rejects hk]
      rw [ht3, has_leafKv] at p4 ⊢
      cases hq : has P.cmp key l with
      | false =>
        rw [p4 hq]
        dsimp only
        rw [bind_assoc_run, bind_ok hset]
        refine Res.ok rfl (.inl ⟨by simp [AgreesE, Spec.step, hhas, hq], ?_, fun _ => hsame⟩)
        have := hsame.now (d := opDue H (.deleteByKey key : Op K V))
        simpa [Spec.step, hhas, hq] using this
      | true =>
        dsimp only
        obtain ⟨a, p, b, rfl, e1⟩ := split_present hs hvl hk hq
        have hk2 : KvIs P.toCmp (some t') (leafKv (a ++ b)) := ⟨t', rfl, p2, by
          rw [p3, ht3, ← e1, leafKv, leafKv, List.filter_map]; rfl⟩
        have hI := h1.2
        rw [bun_leaf, leafB, add_assoc, add_assoc] at hI
        obtain ⟨left, h3⟩ := hI.openLeaf rfl
        have h4 := h3.setKv (l' := leafKv (a ++ b)) (t := t') (ld := true) (items := (a ++ p :: b).length) (leaf := true) (left := left) (l := leafKv (a ++ p :: b)) rfl hk2
        have h5 := h4.closeLeaf (l := a ++ b) (left := left) rfl
        rw [bind_assoc_run]
        refine (Res.ok (E := fun _ _ => False) (Q := fun _ w2 => I P w0 T w2 (some g.id) (cellB (mkCell P C.pos i st (.leaf (a ++ p :: b).length (a ++ b))) + lruB P.ca i st.isNone + ownPage st (mkDisk P C.pos.root (a ++ p :: b).length (.leaf (a ++ p :: b))) +
          (C.bun P (Gt.leaf i st (a ++ p :: b)).kid + (slotB {g.id} + R)))) (show setKv i t' w' = (.ok (), _) from rfl) (h5.eq (by rw [mkCell_with, ← add_assoc, ← add_assoc]))).bind (fun _ _ h => h.elim) ?_
        intro _ w2 h6
        simp only [withErr, bind_assoc_run]
        refine (hr.shrink (by omega) h1 h6).attempt.bind (fun _ _ h => h.elim) ?_
        rintro (e | ⟨⟩) w3 h7
        · exact Res.ok rfl (.inr ⟨e, rfl, h7, by simp [Spec.step, hhas, hq]⟩)
        · obtain ⟨H', g', q1, q2, q4, q3⟩ := h7
          refine Res.ok rfl (.inl ⟨by simp [AgreesE, Spec.step, hhas, hq], (.inr ⟨H', g', q1, ?_, q4, q3⟩), by simp [Spec.step, hhas, hq]⟩)
          rw [q2]
          simp only [Spec.step, hhas, hq, Bool.false_eq_true, if_false, if_true]
          rw [hfl, around_del P.law hk hval (hfit hk).lt (hfit hk).gt, e1]
    · obtain ⟨e1, -⟩ := h1.invalid (hv.resolve_left hk)
      by_cases hl : l = []
      · subst hl
        have : tr = .nil := by cases tr with | nil => rfl | node => simp [leafKv] at ht3
        subst this
        rw [show LLRB.Tree.deleteByKey P.cmp key (.nil : LLRB.Tree K (Val V)) = some ((false, none), .nil) from rfl]
        dsimp only
        rw [bind_assoc_run, bind_ok hset, e1]
        have := hsame.now (d := opDue H (.deleteByKey key : Op K V))
        rw [e1] at this
        refine Res.ok rfl (.inl ⟨by simp [AgreesE, Spec.step, rejects_nil, find, has], ?_, fun _ => hsame⟩)
        simpa [Spec.step, rejects_nil, find, has] using this
      · obtain ⟨e, he, kx, -, hkx⟩ := LLRB.Tree.deleteByKey_invalid P.law hk (t := tr) (by rintro rfl; exact hl (by simpa [leafKv] using ht3.symm))
        rw [he]
        dsimp only
        rw [bind_assoc_run, bind_ok hset, e1, LLRB.Tree.rejects_invalid P.law hk hl]
        have := hsame.now (d := opDue H (.deleteByKey key : Op K V))
        rw [e1] at this
        exact Res.ok rfl (.inl ⟨⟨key, rfl, kx.1, hkx⟩, this, fun _ => hsame⟩)

/-- `DeleteByIndex` -/
theorem deleteByIndex_run {g : Gt K V H} (hr : Rest P w0 T R g w) {fuel : Nat} (hf : H + P.max + 1 < fuel) (i : Int) :
    DelPost P w0 T R g (.deleteByIndex i) false (step P.cmp P.τ fuel (.deleteByIndex i) w) := by
  simp only [step, deleteByIndex, bind_assoc_run, DelPost, stepE, Op.key?]
  rw [bind_ok (hr.outOfRange i)]
  cases hi : (at? i g.erase.flat).isSome with
  | false =>
    rw [Bool.not_false, if_pos rfl]
    have := Option.isNone_iff_eq_none.1 (Option.isSome_eq_false_iff.1 hi)
    exact Res.ok rfl (.inl ⟨by simp [AgreesE, Spec.step, this], (.inl ⟨by simp [Spec.step, this], g, .refl g, hr⟩), fun _ => ⟨g, .refl g, hr⟩⟩)
  | true =>
    rw [Bool.not_true, if_neg (by simp), bind_assoc_run, bind_ok hr.root]
    obtain ⟨k, hk1, hk2, hk3⟩ := at_nat hi
    rw [hk2, bind_assoc_run]
    refine (hr.byIndex true hk3 (by omega)).bind ?_ ?_
    · rintro e w' ⟨h1, h2⟩
      exact .inl ⟨h1, fun _ => h2⟩
    · rintro x w' ⟨C, i', st, l, k', rfl, e1, hk', h1⟩
      have hfl := h1.flat
      dsimp only
      obtain ⟨a, p, b, rfl, ha⟩ : ∃ a p b, l = a ++ p :: b ∧ a.length = k' := ⟨l.take k', l[k'], l.drop (k' + 1), by simp, by simp; omega⟩
      have hI := h1.2
      rw [bun_leaf, leafB, add_assoc, add_assoc] at hI
      obtain ⟨left, h3⟩ := hI.openLeaf rfl
      obtain ⟨w2, e2, h4⟩ := (h3.eq (R' := cellB (mkCell P C.pos i' st (.raw true (a ++ p :: b).length true left (leafKv a ++ (p.1, .item p.2) :: leafKv b))) + _) (by
        rw [leafKv_append]; rfl)).kvDel (a := leafKv a) (b := leafKv b) (p := (p.1, .item p.2)) (n := (k' : Int)) rfl (by rw [leafKv_length, ha])
      have e2' : kvDeleteByIndex P.cmp i' (k' : Int) w' = (.ok true, w2) := e2
      rw [bind_assoc_run, bind_ok e2', bind_assoc_run]
      have h5 := (h4.eq (R' := cellB (mkCell P C.pos i' st (.raw true (a ++ p :: b).length true left (leafKv (a ++ b)))) + _) (by rw [leafKv_append]; rfl)).closeLeaf (l := a ++ b) (left := left) rfl
      refine (hr.shrink (by omega) h1 (h5.eq (by rw [mkCell_with, ← add_assoc, ← add_assoc]))).bind (fun e _ h => .inl ⟨h, by simp⟩) ?_
      rintro _ w3 ⟨H', g', q1, q2, q4, q3⟩
      refine Res.ok rfl (.inl ⟨by simp [AgreesE, Spec.step, hi], (.inr ⟨H', g', q1, ?_, q4, q3⟩), by simp [Spec.step, hi]⟩)
      rw [q2]
      simp only [Spec.step, hi, if_true]
      rw [hfl, hk2, e1, List.append_assoc, List.append_assoc, List.append_assoc, List.eraseIdx_append_of_length_le (by omega), show C.lflat.length + k' - C.lflat.length = a.length by omega,
        List.append_assoc, List.eraseIdx_append_of_length_le (Nat.le_refl _), Nat.sub_self, List.cons_append, List.eraseIdx_cons_zero]

end

end SM.BT

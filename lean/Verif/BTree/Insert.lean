import Verif.BTree.Spot

/-! Insertion: splitting nodes, growing the root, and the recursion towards it. -/

namespace SM.BT

open Spec (at? below above find has rejects Agrees AgreesE Refused stepE Op Ans)

variable {K V : Type}

section
variable {P : Par K} {h H : Nat} {w0 : World K V} {T : Tot K V} {w : World K V} {ρ : Option Id} {R : B K V}

theorem at_last {α : Type} (l : List (K × α)) (a : K × α) {n : Int} (hn : n = l.length) : at? n (l ++ [a]) = some a := by
  subst hn
  rw [at?_nat]; simp

theorem sorted_last {cmp : Compare K} {l acc : List (K × V)} {q : K × V} (hs : Spec.Sorted cmp (l ++ q :: acc)) : AllGt cmp q.1 acc := by
  intro p hp
  exact (List.pairwise_cons.1 (List.pairwise_append.1 hs).2.1).1 p hp

theorem allGt_leafKv {cmp : Compare K} {k : K} {l : List (K × V)} (h : AllGt cmp k l) : AllGt cmp k (leafKv l) := by
  intro p hp
  obtain ⟨p', hp', rfl⟩ := List.mem_map.1 hp
  exact h p' hp'

/-- One turn of the loop that splits a leaf. -/
theorem splitTurn_leaf {c d : Cell K V} (hc : c.cm = P.toCmp) (hd : d.cm = P.toCmp) {lf rt : Option Id} {l acc : List (K × V)} {q : K × V}
    {items items' mn : Nat} (hs : Spec.Sorted P.cmp (l ++ q :: acc)) (hv : AllValid P.Valid (l ++ q :: acc)) (hi : 0 < items)
    (hI : I P w0 T w ρ (cellB { c with body := .raw true items true lf (leafKv (l ++ [q])) } +
      (cellB { d with body := .raw true items' true rt (leafKv acc) } + R))) :
    ∃ w', splitLoop P.cmp mn true c.id d.id (l.length + 1) w =
        (if mn = l.length then pure q.1 else splitLoop P.cmp mn true c.id d.id l.length) w' ∧
      I P w0 T w' ρ (cellB { c with body := .raw true (items - 1) true lf (leafKv l) } +
        (cellB { d with body := .raw true (items' + 1) true rt (leafKv (q :: acc)) } + R)) := by
  have hcc : c.cm.cmp = P.cmp := by rw [hc]
  have hdd : d.cm.cmp = P.cmp := by rw [hd]
  rw [splitLoop]
  have e0 : leafKv (l ++ [q]) = leafKv l ++ [(q.1, .item q.2)] := leafKv_append _ _
  rw [e0] at hI
  rw [bind_ok (hI.kvGet rfl _), at_last _ _ (by rw [leafKv_length])]
  simp only [must_some_bind]
  obtain ⟨w1, e1, h1⟩ := hI.kvDel (a := leafKv l) (b := []) (n := l.length) rfl (by rw [leafKv_length])
  simp only [hcc, List.append_nil] at e1 h1
  rw [bind_ok e1]
  simp only [check_true_bind, if_true]
  obtain ⟨w2, e2, h2⟩ := h1.modItems (f := fun x => sub64 x 1) rfl
  simp only at e2 h2
  rw [bind_ok e2]
  obtain ⟨w3, e3, h3⟩ := (h2.eq (add_left_comm _ _ _)).modItems (f := fun x => x + 1) rfl
  simp only at e3 h3
  rw [bind_ok e3]
  obtain ⟨w4, e4, h4⟩ := h3.kvPut (a := []) (b := leafKv acc) (k := q.1) rfl (by rw [hd]; exact hv q (by simp)) (.item q.2) (by simp [AllLt])
    (by rw [hdd]; exact allGt_leafKv (sorted_last hs))
  simp only [hdd] at e4 h4
  rw [bind_ok e4]
  simp only [check_true_bind]
  refine ⟨w4, rfl, h4.eq ?_⟩
  rw [sub64, if_pos (by omega), add_left_comm]
  rfl

/-- The loop that splits a leaf. -/
theorem splitLoop_leaf {c d : Cell K V} (hc : c.cm = P.toCmp) (hd : d.cm = P.toCmp) {lf rt : Option Id} (l1 : List (K × V)) (p : K × V) :
    ∀ (l2 acc : List (K × V)) {items items' : Nat} {w : World K V},
    Spec.Sorted P.cmp (l1 ++ p :: (l2 ++ acc)) → AllValid P.Valid (l1 ++ p :: (l2 ++ acc)) → l2.length < items →
    I P w0 T w ρ (cellB { c with body := .raw true items true lf (leafKv (l1 ++ p :: l2)) } +
      (cellB { d with body := .raw true items' true rt (leafKv acc) } + R)) →
    ∃ w', splitLoop P.cmp l1.length true c.id d.id (l1.length + 1 + l2.length) w = (.ok p.1, w') ∧
      I P w0 T w' ρ (cellB { c with body := .raw true (items - (l2.length + 1)) true lf (leafKv l1) } +
        (cellB { d with body := .raw true (items' + (l2.length + 1)) true rt (leafKv (p :: (l2 ++ acc))) } + R)) := by
  intro l2
  induction l2 using List.reverseRecOn with
  | nil =>
    intro acc items items' w hs hv hi hI
    obtain ⟨w1, e1, h1⟩ := splitTurn_leaf (mn := l1.length) hc hd hs hv hi hI
    rw [if_pos rfl] at e1
    exact ⟨w1, e1, h1⟩
  | append_singleton l q ih =>
    intro acc items items' w hs hv hi hI
    simp only [List.length_append, List.length_singleton] at hi
    obtain ⟨w1, e1, h1⟩ := splitTurn_leaf (l := l1 ++ p :: l) (q := q) (acc := acc) (mn := l1.length) (items := items) hc hd (by simpa using hs) (by simpa using hv) (by omega)
      (hI.eq (by rw [show l1 ++ p :: (l ++ [q]) = l1 ++ p :: l ++ [q] by simp]))
    rw [if_neg (by simp)] at e1
    obtain ⟨w2, e2, h2⟩ := ih (q :: acc) (by simpa using hs) (by simpa using hv) (by omega) h1
    refine ⟨w2, ?_, h2.eq ?_⟩
    · rw [← e2, show l1.length + 1 + l.length = (l1 ++ p :: l).length by simp; omega, ← e1]
      congr 1
      simp; omega
    · simp only [List.length_append, List.length_singleton, List.append_assoc, List.singleton_append]
      rw [show items - 1 - (l.length + 1) = items - (l.length + 1 + 1) by omega,
        show items' + 1 + (l.length + 1) = items' + (l.length + 1 + 1) by omega]

/-- The entries of a non-leaf in kvLLRB. -/
def kvl (l : List (K × Gt K V h)) : List (K × Val V) := innerKv (l.map fun p => (p.1, p.2.id))

theorem kvl_append (a b : List (K × Gt K V h)) : kvl (a ++ b) = kvl a ++ kvl b := by simp [kvl, innerKv]
@[simp] theorem kvl_nil : kvl ([] : List (K × Gt K V h)) = [] := rfl
@[simp] theorem kvl_cons (p : K × Gt K V h) (l) : kvl (p :: l) = (p.1, .node p.2.id) :: kvl l := rfl
@[simp] theorem kvl_length (l : List (K × Gt K V h)) : (kvl l).length = l.length := by simp [kvl, innerKv]

/-- Keys in order, all valid. -/
def KeysOK (P : Par K) (l : List (K × Gt K V h)) : Prop :=
  l.Pairwise (fun p q => ltb P.cmp p.1 q.1 = true) ∧ ∀ p ∈ l, P.Valid p.1

theorem KeysOK.gt {l acc : List (K × Gt K V h)} {q : K × Gt K V h} (hs : KeysOK P (l ++ q :: acc)) : AllGt P.cmp q.1 (kvl acc) := by
  intro p hp
  simp only [kvl, innerKv, List.map_map, List.mem_map] at hp
  obtain ⟨p', hp', rfl⟩ := hp
  exact (List.pairwise_cons.1 (List.pairwise_append.1 hs.1).2.1).1 p' hp'

theorem KeysOK.lt {l acc : List (K × Gt K V h)} {q : K × Gt K V h} (hs : KeysOK P (l ++ q :: acc)) : AllLt P.cmp (kvl l) q.1 := by
  intro p hp
  simp only [kvl, innerKv, List.map_map, List.mem_map] at hp
  obtain ⟨p', hp', rfl⟩ := hp
  exact (List.pairwise_append.1 hs.1).2.2 p' hp' q (by simp)

/-- One turn of the loop that splits a non-leaf. -/
theorem splitTurn_inner {c d : Cell K V} (hc : c.cm = P.toCmp) (hd : d.cm = P.toCmp) {lf : Option Id} {l acc : List (K × Gt K V h)} {q : K × Gt K V h}
    {items items' mn : Nat} (hs : KeysOK P (l ++ q :: acc))
    (hI : I P w0 T w ρ (cellB { c with body := .raw true items false lf (kvl (l ++ [q])) } +
      (cellB { d with body := .raw true items' false none (kvl acc) } + (bun P (Pos.child c.id) q.2 + R)))) :
    (mn ≠ l.length → ∃ w' it it', splitLoop P.cmp mn false c.id d.id (l.length + 1) w = splitLoop P.cmp mn false c.id d.id l.length w' ∧
      I P w0 T w' ρ (cellB { c with body := .raw true it false lf (kvl l) } +
        (cellB { d with body := .raw true it' false none (kvl (q :: acc)) } + (bun P (Pos.child d.id) q.2 + R)))) ∧
    (mn = l.length → ∃ w' it it', splitLoop P.cmp mn false c.id d.id (l.length + 1) w = (.ok q.1, w') ∧
      I P w0 T w' ρ (cellB { c with body := .raw true it false lf (kvl l) } +
        (cellB { d with body := .raw true it' false (some q.2.id) (kvl acc) } + (bun P (Pos.child d.id) q.2 + R)))) := by
  have hcc : c.cm.cmp = P.cmp := by rw [hc]
  have hdd : d.cm.cmp = P.cmp := by rw [hd]
  rw [splitLoop]
  rw [kvl_append, kvl_cons, kvl_nil] at hI
  rw [bind_ok (hI.kvGet rfl _), at_last _ _ (by rw [kvl_length])]
  simp only [must_some_bind]
  obtain ⟨w1, e1, h1⟩ := hI.kvDel (a := kvl l) (b := []) (n := l.length) rfl (by rw [kvl_length])
  simp only [hcc, List.append_nil] at e1 h1
  rw [bind_ok e1]
  simp only [check_true_bind, Bool.false_eq_true, if_false, asNode, pure_bind_run]
  obtain ⟨w2, e2, h2⟩ := (h1.eq (by abel : _ = bun P (Pos.child c.id) q.2 + (cellB { c with body := .raw true items false lf (kvl l) } +
      (cellB { d with body := .raw true items' false none (kvl acc) } + R)))).reparent (some d.id)
  replace h2 : I P w0 T w2 ρ (bun P (Pos.child d.id) q.2 + (cellB { c with body := .raw true items false lf (kvl l) } +
      (cellB { d with body := .raw true items' false none (kvl acc) } + R))) := h2
  rw [bind_ok e2]
  simp only [getN_bind]
  obtain ⟨w3, e3, h3⟩ := (h2.eq (add_left_comm _ _ _)).modItems (f := fun x => sub64 x (w2.node q.2.id).items) rfl
  simp only at e3 h3
  rw [bind_ok e3]
  obtain ⟨w4, e4, h4⟩ := (h3.eq (by abel : _ = cellB { d with body := .raw true items' false none (kvl acc) } +
    (cellB { c with body := .raw true (sub64 items (w2.node q.2.id).items) false lf (kvl l) } + (bun P (Pos.child d.id) q.2 + R)))).modItems (f := fun x => x + (w2.node q.2.id).items) rfl
  simp only at e4 h4
  rw [bind_ok e4]
  constructor
  · intro hn
    rw [if_neg hn]
    obtain ⟨w5, e5, h5⟩ := h4.kvPut (a := []) (b := kvl acc) (k := q.1) rfl (by rw [hd]; exact hs.2 q (by simp)) (.node q.2.id) (by simp [AllLt])
      (by rw [hdd]; exact hs.gt)
    simp only [hdd] at e5 h5
    rw [bind_ok e5]
    simp only [check_true_bind]
    exact ⟨w5, _, _, rfl, h5.eq (add_left_comm _ _ _)⟩
  · intro hn
    rw [if_pos hn]
    obtain ⟨w5, e5, h5⟩ := h4.setLeft rfl (some q.2.id)
    simp only at e5 h5
    rw [bind_ok e5]
    exact ⟨w5, _, _, rfl, h5.eq (add_left_comm _ _ _)⟩

/-- The loop that splits a non-leaf. -/
theorem splitLoop_inner {c d : Cell K V} (hc : c.cm = P.toCmp) (hd : d.cm = P.toCmp) {lf : Option Id} (l1 : List (K × Gt K V h)) (p : K × Gt K V h) :
    ∀ (l2 acc : List (K × Gt K V h)) {items items' : Nat} {R : B K V} {w : World K V}, KeysOK P (l1 ++ p :: (l2 ++ acc)) →
    I P w0 T w ρ (cellB { c with body := .raw true items false lf (kvl (l1 ++ p :: l2)) } +
      (cellB { d with body := .raw true items' false none (kvl acc) } + (kidsB P c.id (p.2 :: l2.map Prod.snd) + R))) →
    ∃ w' it it', splitLoop P.cmp l1.length false c.id d.id (l1.length + 1 + l2.length) w = (.ok p.1, w') ∧
      I P w0 T w' ρ (cellB { c with body := .raw true it false lf (kvl l1) } +
        (cellB { d with body := .raw true it' false (some p.2.id) (kvl (l2 ++ acc)) } + (kidsB P d.id (p.2 :: l2.map Prod.snd) + R))) := by
  intro l2
  induction l2 using List.reverseRecOn with
  | nil =>
    intro acc items items' R w hs hI
    obtain ⟨w1, it, it', e1, h1⟩ := (splitTurn_inner (mn := l1.length) (items := items) (items' := items') (lf := lf) hc hd hs (R := R) (hI.eq (by simp))).2 rfl
    exact ⟨w1, it, it', e1, h1.eq (by simp)⟩
  | append_singleton l q ih =>
    intro acc items items' R w hs hI
    obtain ⟨w1, it, it', e1, h1⟩ := (splitTurn_inner (l := l1 ++ p :: l) (q := q) (acc := acc) (mn := l1.length) hc hd (by simpa using hs)
      (R := kidsB P c.id (p.2 :: l.map Prod.snd) + R)
      (hI.eq (by simp only [List.map_append, List.map_cons, List.map_nil, kidsB_cons, kidsB_append, kidsB_nil, add_zero]; rw [show l1 ++ p :: (l ++ [q]) = l1 ++ p :: l ++ [q] by simp]; abel))).1 (by simp)
    obtain ⟨w2, it2, it2', e2, h2⟩ := ih (q :: acc) (R := bun P (Pos.child d.id) q.2 + R) (by simpa using hs) (h1.eq (by abel))
    refine ⟨w2, it2, it2', ?_, h2.eq ?_⟩
    · rw [← e2, show l1.length + 1 + l.length = (l1 ++ p :: l).length by simp; omega, ← e1]
      congr 1
      simp; omega
    · simp only [List.map_append, List.map_cons, List.map_nil, kidsB_cons, kidsB_append, kidsB_nil, add_zero, List.append_assoc, List.singleton_append]
      abel

/-- Building the prefix-sum tree of a non-leaf. -/
theorem arrange_row {c : Cell K V} {r : Row K (Gt K V h)} {items : Nat} {q0 : Option (List (Id × Nat))}
    (hb : c.body = .inner items r.c0.id (r.cs.map fun p => (p.1, p.2.id)) q0)
    (hI : I P w0 T w ρ (cellB c + (kidsB P c.id r.kids + R))) :
    ∃ w', arrangePrefixSumTree c.id w = (.ok (), w') ∧
      I P w0 T w' ρ (cellB { c with body := (r.map Gt.kid).body } + (kidsB P c.id r.kids + R)) := by
  have hk := (hI.eq (by abel : _ = kidsB P c.id r.kids + (cellB c + R))).itemsKids
  obtain ⟨w1, e1, h1⟩ := hI.arrange (q := r.kids.map fun t => (t.id, t.cnt)) hb
    (by simp [Row.kids, Function.comp_def]) (by
      intro p hp
      obtain ⟨t, ht, rfl⟩ := List.mem_map.1 hp
      exact hk t ht)
  refine ⟨w1, e1, h1.eq ?_⟩
  congr 3
  simp [total, Row.body, Row.total, Function.comp_def, Gt.kid]

theorem kids_ids (r : Row K (Gt K V h)) : (r.c0.id :: (r.cs.map fun p => (p.1, p.2.id)).map Prod.snd : List Id) = r.kids.map Gt.id := by
  simp [Row.kids, Function.comp_def]

/-- Closing a non-leaf and building its prefix sums. -/
theorem closeArrange {c : Cell K V} {r : Row K (Gt K V h)} {items : Nat}
    (hI : I P w0 T w ρ (cellB { c with body := .raw true items false (some r.c0.id) (kvl r.cs) } +
      (slotB ((r.kids.map Gt.id : List Id) : Multiset Id) + (kidsB P c.id r.kids + R)))) :
    ∃ w', arrangePrefixSumTree c.id w = (.ok (), w') ∧
      I P w0 T w' ρ (cellB { c with body := (r.map Gt.kid).body } + (kidsB P c.id r.kids + R)) := by
  have h1 := (hI.eq (add_assoc _ _ _).symm).eq (R' := cellB { c with body := .raw true items false (some r.c0.id) (kvl r.cs) } +
    slotB ((r.c0.id :: (r.cs.map fun p => (p.1, p.2.id)).map Prod.snd : List Id) : Multiset Id) + (kidsB P c.id r.kids + R)) (by rw [kids_ids])
  exact arrange_row (c := { c with body := .inner items r.c0.id (r.cs.map fun p => (p.1, p.2.id)) none }) rfl (h1.close rfl)

theorem bun_fresh_leaf (q : Pos) (i : Id) (l : List (K × V)) : bun P q (.odLeaf i .fresh l) =
    cellB (mkCell P q i none (.leaf l.length l)) + offB i := by
  rw [bun_odLeaf, oddB]; simp only [Odd.fresh]
  show cellB (mkCell P q i none (.leaf l.length l)) + offB i + pagesB 0 = _
  rw [show (pagesB 0 : B K V) = 0 from rfl, add_zero]

theorem bun_fresh_inner (q : Pos) (i : Id) (r : Row K (Gt K V h)) : bun P q (.odInner i .fresh r) =
    cellB (mkCell P q i none (r.map Gt.kid).body) + offB i + kidsB P i r.kids := by
  rw [bun_odInner, oddB]; simp only [Odd.fresh]
  show cellB (mkCell P q i none (r.map Gt.kid).body) + offB i + pagesB 0 + _ = _
  rw [show (pagesB 0 : B K V) = 0 from rfl, add_zero]; rfl

theorem I.min_eq (h : I P w0 T w ρ R) : (w.trees P.τ).min = P.min := h.min
theorem I.max_eq (h : I P w0 T w ρ R) : (w.trees P.τ).max = P.max := h.max

/-- Splitting a leaf. -/
theorem splitNode_leaf {q : Pos} {i : Id} {l : List (K × V)} (hl : l.length = P.max + 1) (hs : Spec.Sorted P.cmp l) (hv : AllValid P.Valid l)
    (hI : I P w0 T w ρ (bun P q (.leaf i none l) + R)) :
    ∃ (w' : World K V) (j : Id) (l1 : List (K × V)) (p : K × V) (l2 : List (K × V)),
      splitNode P.cmp P.τ i l.length w = (.ok (j, p.1), w') ∧ l = l1 ++ p :: l2 ∧ l1.length = P.min ∧
      I P w0 T w' ρ (bun P q (.leaf i none l1) + (bun P ⟨q.parent, false⟩ (.odLeaf j .fresh (p :: l2)) + (slotB {j} + R))) := by
  have hmin : P.min < l.length := by have := P.four; simp only [Par.min]; omega
  obtain ⟨l1, p, l2, rfl, hl1⟩ : ∃ l1 p l2, l = l1 ++ p :: l2 ∧ l1.length = P.min :=
    ⟨l.take P.min, l[P.min], l.drop (P.min + 1), by simp, by simp; omega⟩
  have hL := hI.isLeaf
  unfold splitNode
  simp only [getT_bind, getN_bind, hI.min_eq, hL.leaf, hL.parent]
  rw [bun_leaf, leafB, ownPage_none, add_zero] at hI
  obtain ⟨w1, e1, h1⟩ := hI.alloc (n := freshStruct P.τ 0 false true q.parent none)
    (mkCell P ⟨q.parent, false⟩ (w.addr P.τ) none (.raw true 0 true none [])) rfl rfl (fun ps => by
      refine ⟨rfl, rfl, rfl, rfl, rfl, ⟨rfl, rfl, rfl, rfl, ?_⟩⟩
      exact ⟨.nil, rfl, LLRB.Tree.OK.nil, rfl⟩)
  rw [mkCell_id] at e1
  rw [mkCell_id, Option.isNone_none] at h1
  rw [bind_ok e1]
  obtain ⟨left, h2⟩ := (h1.eq (by abel : _ = cellB (mkCell P q i none (.leaf (l1 ++ p :: l2).length (l1 ++ p :: l2))) + (cellB (mkCell P ⟨q.parent, false⟩ (w.addr P.τ) none (.raw true 0 true none [])) +
    (lruB P.ca i true + offB (w.addr P.τ) + slotB {(w.addr P.τ)} + R)))).openLeaf rfl
  obtain ⟨w2, e2, h3⟩ := splitLoop_leaf (c := mkCell P q i none (.leaf (l1 ++ p :: l2).length (l1 ++ p :: l2))) (d := mkCell P ⟨q.parent, false⟩ (w.addr P.τ) none (.raw true 0 true none []))
    rfl rfl l1 p l2 [] (by simpa using hs) (by simpa using hv) (by simp; omega) h2
  rw [mkCell_id, mkCell_id, hl1, show P.min + 1 + l2.length = (l1 ++ p :: l2).length by simp; omega] at e2
  rw [bind_ok e2]
  simp only [Bool.not_true, Bool.false_eq_true, if_false, pure_bind_run]
  refine ⟨w2, (w.addr P.τ), l1, p, l2, rfl, rfl, hl1, ?_⟩
  have h4 := h3.closeLeaf (items := l1.length) (l := l1) (left := left) (by simp)
  have h5 := (h4.eq (add_left_comm _ _ _)).closeLeaf (items := (p :: l2).length) (l := p :: l2) (left := none) (by simp)
  refine h5.eq ?_
  rw [bun_leaf, leafB, ownPage_none, bun_fresh_leaf]
  show cellB (mkCell P ⟨q.parent, false⟩ (w.addr P.τ) none (.leaf (p :: l2).length (p :: l2))) + (cellB (mkCell P q i none (.leaf l1.length l1)) +
    (lruB P.ca i true + offB (w.addr P.τ) + slotB {(w.addr P.τ)} + R)) = _
  rw [Option.isNone_none]
  abel

/-- Splitting a non-leaf. -/
theorem splitNode_inner {q : Pos} {i : Id} {c0 : Gt K V h} {cs : List (K × Gt K V h)} {items : Nat} (hl : cs.length = P.max + 1) (hs : KeysOK P cs)
    (hI : I P w0 T w ρ (cellB (mkCell P q i none (.raw true items false (some c0.id) (kvl cs))) + (slotB (((c0 :: cs.map Prod.snd).map Gt.id : List Id) : Multiset Id) +
      (lruB P.ca i true + kidsB P i (c0 :: cs.map Prod.snd) + R)))) :
    ∃ (w' : World K V) (j : Id) (l1 : List (K × Gt K V h)) (p : K × Gt K V h) (l2 : List (K × Gt K V h)),
      splitNode P.cmp P.τ i cs.length w = (.ok (j, p.1), w') ∧ cs = l1 ++ p :: l2 ∧ l1.length = P.min ∧
      I P w0 T w' ρ (bun P q (.inner i none ⟨c0, l1⟩) + (bun P ⟨q.parent, false⟩ (.odInner j .fresh ⟨p.2, l2⟩) + (slotB {j} + R))) := by
  have hmin : P.min < cs.length := by have := P.four; simp only [Par.min]; omega
  obtain ⟨l1, p, l2, rfl, hl1⟩ : ∃ l1 p l2, cs = l1 ++ p :: l2 ∧ l1.length = P.min :=
    ⟨cs.take P.min, cs[P.min], cs.drop (P.min + 1), by simp, by simp; omega⟩
  have hc := hI.cell
  have hb : BodyIs P.toCmp (w.node i) w.ps (.raw true items false (some c0.id) (kvl (l1 ++ p :: l2))) := hc.body
  have hp : (w.node i).parent = q.parent := hc.parent
  unfold splitNode
  simp only [getT_bind, getN_bind, hI.min_eq, hb.2.1, hp]
  obtain ⟨w1, e1, h1⟩ := hI.alloc (n := freshStruct P.τ 0 false false q.parent none)
    (mkCell P ⟨q.parent, false⟩ (w.addr P.τ) none (.raw true 0 false none [])) rfl rfl (fun ps => by
      refine ⟨rfl, rfl, rfl, rfl, rfl, ⟨rfl, rfl, rfl, rfl, ?_⟩⟩
      exact ⟨.nil, rfl, LLRB.Tree.OK.nil, rfl⟩)
  rw [mkCell_id] at e1
  rw [bind_ok e1]
  obtain ⟨w2, it, it', e2, h2⟩ := splitLoop_inner (c := mkCell P q i none (.raw true items false (some c0.id) (kvl (l1 ++ p :: l2))))
    (d := mkCell P ⟨q.parent, false⟩ (w.addr P.τ) none (.raw true 0 false none []))
    rfl rfl (lf := some c0.id) l1 p l2 [] (R := slotB (((c0 :: (l1 ++ p :: l2).map Prod.snd).map Gt.id : List Id) : Multiset Id) +
      (lruB P.ca i true + kidsB P i (c0 :: l1.map Prod.snd) + (offB (w.addr P.τ) + slotB {(w.addr P.τ)} + R))) (by simpa using hs) (h1.eq (by
        simp only [List.map_append, List.map_cons, kidsB_cons, kidsB_append]
        show cellB (mkCell P ⟨q.parent, false⟩ (w.addr P.τ) none (.raw true 0 false none [])) + offB (w.addr P.τ) + slotB {(w.addr P.τ)} + (cellB (mkCell P q i none (.raw true items false (some c0.id) (kvl (l1 ++ p :: l2)))) + _) =
          cellB (mkCell P q i none (.raw true items false (some c0.id) (kvl (l1 ++ p :: l2)))) + (cellB (mkCell P ⟨q.parent, false⟩ (w.addr P.τ) none (.raw true 0 false none [])) + _)
        rw [mkCell_id]
        abel))
  rw [mkCell_id, mkCell_id, hl1, show P.min + 1 + l2.length = (l1 ++ p :: l2).length by simp; omega] at e2
  rw [bind_ok e2]
  simp only [Bool.not_false, if_true]
  rw [List.append_nil, mkCell_id] at h2
  obtain ⟨w3, e3, h3⟩ := closeArrange (r := ⟨c0, l1⟩) (items := it) (c := mkCell P q i none (.raw true items false (some c0.id) (kvl (l1 ++ p :: l2))))
    (R := cellB (mkCell P ⟨q.parent, false⟩ (w.addr P.τ) none (.raw true it' false (some p.2.id) (kvl l2))) + slotB (((p.2 :: l2.map Prod.snd).map Gt.id : List Id) : Multiset Id) +
      kidsB P (w.addr P.τ) (p.2 :: l2.map Prod.snd) + (lruB P.ca i true + (offB (w.addr P.τ) + slotB {(w.addr P.τ)} + R))) (h2.eq (by
        have e : (((c0 :: (l1 ++ p :: l2).map Prod.snd).map Gt.id : List Id) : Multiset Id) = ((c0 :: l1.map Prod.snd).map Gt.id : List Id) + ((p.2 :: l2.map Prod.snd).map Gt.id : List Id) := by
          simp
        rw [e, slotB_add]
        show _ + (cellB (mkCell P ⟨q.parent, false⟩ (w.addr P.τ) none (.raw true it' false (some p.2.id) (kvl l2))) + _) = _
        simp only [Row.kids, mkCell_id]
        abel))
  rw [mkCell_id] at e3
  rw [bind_assoc_run, bind_ok e3]
  obtain ⟨w4, e4, h4⟩ := closeArrange (r := ⟨p.2, l2⟩) (items := it') (c := mkCell P ⟨q.parent, false⟩ (w.addr P.τ) none (.raw true it' false (some p.2.id) (kvl l2)))
    (R := cellB (mkCell P q i none (Row.body ((⟨c0, l1⟩ : Row K (Gt K V h)).map Gt.kid))) + kidsB P i (c0 :: l1.map Prod.snd) + (lruB P.ca i true + (offB (w.addr P.τ) + slotB {(w.addr P.τ)} + R))) (h3.eq (by
        show cellB (mkCell P q i none (Row.body ((⟨c0, l1⟩ : Row K (Gt K V h)).map Gt.kid))) + _ = cellB (mkCell P ⟨q.parent, false⟩ (w.addr P.τ) none (.raw true it' false (some p.2.id) (kvl l2))) + _
        simp only [Row.kids, mkCell_id]
        abel))
  rw [mkCell_id] at e4
  rw [bind_ok e4]
  refine ⟨w4, (w.addr P.τ), l1, p, l2, rfl, rfl, hl1, h4.eq ?_⟩
  rw [bun_fresh_inner, bun_inner, innerB, ownPage_none, Option.isNone_none]
  show cellB (mkCell P ⟨q.parent, false⟩ (w.addr P.τ) none (Row.body ((⟨p.2, l2⟩ : Row K (Gt K V h)).map Gt.kid))) + _ =
    cellB (mkCell P q i none (Row.body ((⟨c0, l1⟩ : Row K (Gt K V h)).map Gt.kid))) + lruB P.ca i true + 0 + kidsB P i (c0 :: l1.map Prod.snd) + _
  simp only [Row.kids, mkCell_id]
  abel

/-- A node just made, once registered as dirty. -/
def Gt.calm : {h : Nat} → Gt K V h → Gt K V h
  | 0, Nd.od i _ l => Nd.ld (X := Xt K V 0) i none l
  | h + 1, Nd.od i _ r => Nd.ld (X := Xt K V (h + 1)) i none r
  | _, t => t

@[simp] theorem calm_leaf (i : Id) (o : Odd K V) (l : List (K × V)) : (Gt.odLeaf i o l).calm = .leaf i none l := rfl
@[simp] theorem calm_inner (i : Id) (o : Odd K V) (r : Row K (Gt K V h)) : (Gt.odInner i o r).calm = .inner i none r := rfl

theorem Gt.Is.odd : ∀ {h : Nat} {t : Gt K V h} {x : Id} {o : Odd K V}, t.Is x (some o) →
    (∃ (e : h = 0) (l : List (K × V)), t = e ▸ .odLeaf x o l) ∨ ∃ (n : Nat) (e : h = n + 1) (r : Row K (Gt K V n)), t = e ▸ .odInner x o r
  | 0, t, x, o, ht => by
      rcases t.cases0 with ⟨i, d, rfl⟩ | ⟨i, st, l, rfl⟩ | ⟨i, o', l, rfl⟩
      · exact ht.elim
      · simp [Gt.Is, Gt.leaf] at ht
      · obtain ⟨h1, rfl⟩ := ht
        cases h1
        exact .inl ⟨rfl, l, rfl⟩
  | h + 1, t, x, o, ht => by
      rcases t.casesS with ⟨i, d, rfl⟩ | ⟨i, st, l, rfl⟩ | ⟨i, o', l, rfl⟩
      · exact ht.elim
      · simp [Gt.Is, Gt.inner] at ht
      · obtain ⟨h1, rfl⟩ := ht
        cases h1
        exact .inr ⟨h, rfl, l, rfl⟩

theorem Gt.Is.dirty : ∀ {h : Nat} {t : Gt K V h} {x : Id}, t.Is x none →
    (∃ (e : h = 0) (l : List (K × V)), t = e ▸ .leaf x none l) ∨ ∃ (n : Nat) (e : h = n + 1) (r : Row K (Gt K V n)), t = e ▸ .inner x none r
  | 0, t, x, ht => by
      rcases t.cases0 with ⟨i, d, rfl⟩ | ⟨i, st, l, rfl⟩ | ⟨i, o', l, rfl⟩
      · exact ht.elim
      · obtain ⟨-, h1, rfl⟩ := ht
        replace h1 : st = none := h1
        subst h1
        exact .inl ⟨rfl, l, rfl⟩
      · simp [Gt.Is, Gt.odLeaf] at ht
  | h + 1, t, x, ht => by
      rcases t.casesS with ⟨i, d, rfl⟩ | ⟨i, st, l, rfl⟩ | ⟨i, o', l, rfl⟩
      · exact ht.elim
      · obtain ⟨-, h1, rfl⟩ := ht
        replace h1 : st = none := h1
        subst h1
        exact .inr ⟨h, rfl, l, rfl⟩
      · simp [Gt.Is, Gt.odInner] at ht

theorem Gt.Is.id {t : Gt K V h} {x : Id} {s : Option (Odd K V)} (ht : t.Is x s) : t.id = x := by
  cases s with
  | none => rcases ht.dirty with ⟨rfl, l, rfl⟩ | ⟨n, rfl, r, rfl⟩ <;> rfl
  | some o => rcases ht.odd with ⟨rfl, l, rfl⟩ | ⟨n, rfl, r, rfl⟩ <;> rfl

theorem Gt.Is.st {t : Gt K V h} {x : Id} {s : Option (Odd K V)} (ht : t.Is x s) : t.st = none := by
  cases s with
  | none => rcases ht.dirty with ⟨rfl, l, rfl⟩ | ⟨n, rfl, r, rfl⟩ <;> rfl
  | some o => rcases ht.odd with ⟨rfl, l, rfl⟩ | ⟨n, rfl, r, rfl⟩ <;> rfl

theorem Gt.Is.calm_due {t : Gt K V h} {x : Id} {o : Odd K V} (ht : t.Is x (some o)) : t.calm.due = t.due := by
  rcases ht.odd with ⟨rfl, l, rfl⟩ | ⟨n, rfl, r, rfl⟩ <;> rfl

theorem Gt.Is.calm {t : Gt K V h} {x : Id} {o : Odd K V} (ht : t.Is x (some o)) : t.calm.Is x none ∧ t.calm.erase = t.erase ∧
    (t.Clean → t.calm.Clean) ∧ t.odds = t.calm.odds + {x} := by
  rcases ht.odd with ⟨rfl, l, rfl⟩ | ⟨n, rfl, r, rfl⟩
  · exact ⟨⟨rfl, rfl, rfl⟩, rfl, fun _ => trivial, by simp⟩
  · refine ⟨⟨rfl, rfl, rfl⟩, rfl, fun hc => ?_, ?_⟩
    · rw [calm_inner, Clean_inner]
      rw [Clean_odInner] at hc
      exact fun c h => ⟨hc c h, by simp⟩
    · rw [calm_inner, odds_inner, odds_odInner, add_comm]

/-- Registering a node just made. -/
theorem I.calm {q : Pos} {t : Gt K V h} {x : Id} (ht : t.Is x (some .fresh)) (hI : I P w0 T w ρ (bun P q t + R)) :
    initNodeAsEvicted P.τ x w = (.ok (), w) ∧ ∃ w', markNodeDirty P.τ x w = (.ok (), w') ∧ I P w0 T w' ρ (bun P q t.calm + R) := by
  rcases ht.odd with ⟨rfl, l, rfl⟩ | ⟨n, rfl, r, rfl⟩
  · simp only at hI ⊢
    rw [bun_fresh_leaf] at hI
    refine ⟨(hI.eq (by abel : _ = offB x + (cellB (mkCell P q x none (.leaf l.length l)) + R))).init, ?_⟩
    obtain ⟨w', e1, h1⟩ := hI.markDirtyNew (c := mkCell P q x none (.leaf l.length l)) rfl
    refine ⟨w', e1, h1.eq ?_⟩
    rw [calm_leaf, bun_leaf, leafB, ownPage_none, add_zero]
    rfl
  · simp only at hI ⊢
    rw [bun_fresh_inner] at hI
    refine ⟨(hI.eq (by abel : _ = offB x + (cellB (mkCell P q x none (r.map Gt.kid).body) + kidsB P x r.kids + R))).init, ?_⟩
    obtain ⟨w', e1, h1⟩ := (hI.eq (add_assoc _ _ _)).markDirtyNew (c := mkCell P q x none (r.map Gt.kid).body) rfl
    refine ⟨w', e1, h1.eq ?_⟩
    rw [calm_inner, bun_inner, innerB, ownPage_none, add_zero, ← add_assoc]
    rfl

theorem bun_root {t : Gt K V h} {x : Id} {s : Option (Odd K V)} (ht : t.Is x s) (p : Option Id) (b b' : Bool) : ∃ (c : Cell K V) (rest : B K V),
    bun P ⟨p, b⟩ t = cellB c + rest ∧ bun P ⟨p, b'⟩ t = cellB { c with root := b' } + rest ∧ c.id = t.id := by
  cases s with
  | none =>
    rcases ht.dirty with ⟨rfl, l, rfl⟩ | ⟨n, rfl, r, rfl⟩
    · exact ⟨_, _, by rw [bun_leaf, leafB, add_assoc], by rw [bun_leaf, leafB, add_assoc]; rfl, rfl⟩
    · exact ⟨_, _, by rw [bun_inner, innerB, add_assoc, add_assoc], by rw [bun_inner, innerB, add_assoc, add_assoc]; rfl, rfl⟩
  | some o =>
    rcases ht.odd with ⟨rfl, l, rfl⟩ | ⟨n, rfl, r, rfl⟩
    · exact ⟨_, _, by rw [bun_odLeaf, oddB, add_assoc], by rw [bun_odLeaf, oddB, add_assoc]; rfl, rfl⟩
    · exact ⟨_, _, by rw [bun_odInner, oddB, add_assoc, add_assoc], by rw [bun_odInner, oddB, add_assoc, add_assoc]; rfl, rfl⟩

theorem I.reroot {p : Option Id} {b : Bool} {t : Gt K V h} {x : Id} {s : Option (Odd K V)} (ht : t.Is x s) (hI : I P w0 T w ρ (bun P ⟨p, b⟩ t + R)) (b' : Bool) :
    ∃ w', BT.modN t.id (fun x => { x with root := b' }) w = (.ok (), w') ∧ I P w0 T w' ρ (bun P ⟨p, b'⟩ t + R) := by
  obtain ⟨c, rest, e1, e2, e3⟩ := bun_root (P := P) ht p b b'
  rw [e1, add_assoc] at hI
  obtain ⟨w', h1, h2⟩ := hI.modN { c with root := b' } rfl rfl (f := fun x => { x with root := b' })
    (fun n hn => ⟨hn.tree, hn.parent, rfl, hn.ref, hn.dirty, hn.body.congr rfl rfl rfl rfl rfl rfl⟩)
  exact ⟨w', by rw [← e3]; exact h1, h2.eq (by rw [e2, add_assoc])⟩

theorem I.parent_of {q : Pos} {t : Gt K V h} (hI : I P w0 T w ρ (bun P q t + R)) : (w.node t.id).parent = q.parent := by
  obtain ⟨c, rest, e1, e2, e3⟩ := bun_parent (P := P) q q.parent t
  have : c.parent = q.parent := by
    have h0 : cellB c + rest = cellB { c with parent := q.parent } + rest := e1.symm.trans e2
    have := congrArg Prod.fst (add_right_cancel h0)
    exact congrArg Cell.parent (Multiset.singleton_inj.1 this)
  rw [e1, add_assoc] at hI
  rw [← e3, ← this]; exact hI.cell.parent

/-- A new root over the halves of the old one. -/
theorem growRoot_run {A B' : Gt K V h} {x y : Id} (hA : A.Is x none) (hB : B'.Is y (some .fresh)) {k : K} (hk : P.Valid k) {big : Nat} (hb : 0 < big)
    (hI : I P w0 T w ρ (bun P ⟨none, true⟩ A + (bun P ⟨none, false⟩ B' + (slotB {y} + (slotB {x} + R))))) :
    ∃ (w' : World K V) (r : Id), (growRoot P.cmp P.τ x y k >>= fun _ => getN x >>= fun n => M.deref n.parent >>= fun p =>
        rearrangePrefixSumTreeToRoot P.τ big p) w = (.ok (), w') ∧
      I P w0 T w' (some r) (bun P ⟨none, true⟩ (.inner r none ⟨A, [(k, B'.calm)]⟩) + (slotB {r} + R)) := by
  have ix := hA.id
  have iy := hB.id
  unfold growRoot
  simp only [bind_assoc_run]
  obtain ⟨w1, e1, h1⟩ := hI.reroot hA false
  rw [ix] at e1
  rw [bind_ok e1]
  simp only [getN_bind]
  obtain ⟨w2, e2, h2⟩ := h1.alloc (n := freshStruct P.τ ((w1.node x).items + (w1.node y).items) true false none (some x))
    (mkCell P ⟨none, true⟩ (w1.addr P.τ) none (.raw true ((w1.node x).items + (w1.node y).items) false (some x) [])) rfl rfl (fun ps => by
      refine ⟨rfl, rfl, rfl, rfl, rfl, ⟨rfl, rfl, rfl, rfl, ?_⟩⟩
      exact ⟨.nil, rfl, LLRB.Tree.OK.nil, rfl⟩)
  generalize (w1.node x).items + (w1.node y).items = items at e2 h2
  generalize (w1.addr P.τ) = r at e2 h2
  rw [mkCell_id] at e2 h2
  rw [bind_ok e2]
  obtain ⟨w3, e3, h3⟩ := h2.setRoot (some r)
  rw [bind_ok e3]
  set cr := mkCell (V := V) P ⟨none, true⟩ r none (.raw true items false (some x) []) with hcr
  obtain ⟨w4, e4, h4⟩ := (h3.eq (by abel : _ = bun P ⟨none, false⟩ A + (cellB cr + offB r + slotB {r} +
    (bun P ⟨none, false⟩ B' + (slotB {y} + (slotB {x} + R)))))).reparent (some r)
  rw [ix] at e4
  rw [bind_ok e4]
  obtain ⟨w5, e5, h5⟩ := (h4.eq (by abel : _ = bun P ⟨none, false⟩ B' + (cellB cr + offB r + slotB {r} +
    (bun P ⟨some r, false⟩ A + (slotB {y} + (slotB {x} + R)))))).reparent (some r)
  rw [iy] at e5
  rw [bind_ok e5]
  obtain ⟨w6, e6, h6⟩ := (h5.eq (by abel : _ = cellB cr + (bun P ⟨some r, false⟩ B' + (offB r + slotB {r} +
    (bun P ⟨some r, false⟩ A + (slotB {y} + (slotB {x} + R))))))).kvPutIgnore (a := []) (b := []) rfl (k := k) hk (.node y) (by simp [AllLt]) (by simp [AllGt])
  have ee : kvPutIgnore P.cmp r k (.node y) w5 = (.ok (), w6) := e6
  rw [bind_ok ee]
  set cr' := { cr with body := .raw true items false (some x) [(k, .node y)] } with hcr'
  replace h6 : I P w0 T w6 (some r) (cellB cr' + (bun P ⟨some r, false⟩ B' + (offB r + slotB {r} +
    (bun P ⟨some r, false⟩ A + (slotB {y} + (slotB {x} + R)))))) := h6
  obtain ⟨i7, w7, e7, h7⟩ := (h6.eq (by abel : _ = bun P ⟨some r, false⟩ B' + (cellB cr' + (offB r + slotB {r} +
    (bun P ⟨some r, false⟩ A + (slotB {y} + (slotB {x} + R))))))).calm hB
  rw [bind_ok i7, bind_ok e7]
  rw [bind_ok (h7.eq (by abel : _ = offB r + (bun P ⟨some r, false⟩ B'.calm + (cellB cr' + (slotB {r} +
    (bun P ⟨some r, false⟩ A + (slotB {y} + (slotB {x} + R)))))))).init]
  obtain ⟨w8, e8, h8⟩ := (h7.eq (by abel : _ = cellB cr' + offB r + (bun P ⟨some r, false⟩ B'.calm + (slotB {r} +
    (bun P ⟨some r, false⟩ A + (slotB {y} + (slotB {x} + R))))))).markDirtyNew (c := cr') rfl
  have e8' : markNodeDirty P.τ r w7 = (.ok (), w8) := e8
  rw [bind_ok e8']
  set cr'' : Cell K V := { cr' with dirty := true } with hcr''
  have h9 := (h8.eq (by rw [show ({x, y} : Multiset Id) = {x} + {y} from rfl, slotB_add]; show _ + lruB P.ca r true + _ = _; abel : _ = cellB cr'' + slotB ({x, y} : Multiset Id) +
    (lruB P.ca r true + (bun P ⟨some r, false⟩ B'.calm + (slotB {r} +
    (bun P ⟨some r, false⟩ A + R)))))).close (items := items) (c0 := x) (cs := [(k, y)]) rfl
  have hp := (h9.eq (by abel : _ = bun P ⟨some r, false⟩ A + (cellB { cr'' with body := .inner items x [(k, y)] none } + (lruB P.ca r true + (bun P ⟨some r, false⟩ B'.calm + (slotB {r} + R)))))).parent_of
  rw [ix] at hp
  simp only [getN_bind]
  rw [hp]
  simp only [deref_some_bind]
  obtain ⟨w9, e9, h10⟩ := rearrange_run big (Ctx.top : Ctx K V (h + 1) (h + 1)) (P := P) (i := r) (st := none) (r := ⟨A, [(k, B'.calm)]⟩) (items := items) (q0 := none) (b := true)
    (n := 0) (s := none) (e := mkDisk P true 0 (.leaf [])) (R := slotB {r} + R) (by omega) (h9.eq (by
      rw [loose, Ctx.bun]
      simp only [Row.kids, List.map_cons, List.map_nil, kidsB_cons, kidsB_nil, ownPage_none, ix, hB.calm.1.id]
      show cellB (mkCell P ⟨none, true⟩ r none (.inner items x [(k, y)] none)) + _ = _
      simp only [Ctx.pos, Pos.child]
      abel))
  refine ⟨w9, r, e9, h10.eq ?_⟩
  simp only [Ctx.pos, Ctx.dirty, Ctx.bun, zero_add]

/-! ### The recursion -/

theorem Sub.odd_eq {g : Gt K V h} {a : Nat} {t : Gt K V a} {x : Id} {o : Odd K V} (hg : g.Is x (some o)) (ht : Sub t g) : ∃ e : a = h, e ▸ t = g := by
  cases h with
  | zero => exact ⟨ht.1, by obtain ⟨rfl, h1⟩ := ht; exact eq_of_heq h1⟩
  | succ h =>
    rcases ht with ⟨rfl, h1⟩ | ⟨i, r, e, -⟩
    · exact ⟨rfl, eq_of_heq h1⟩
    · replace e : g = Gt.inner i none r := e
      subst e
      simp [Gt.Is, Gt.inner] at hg

/-- What the caller does after inserting the new sibling further up (btree.go:1300-1309). -/
def closeUp (P : Par K) (big : Nat) (x y : Id) : M K V Unit :=
  initNodeAsEvicted P.τ y >>= fun _ => markNodeDirty P.τ y >>= fun _ => getN x >>= fun n => M.deref n.parent >>= fun p =>
    rearrangePrefixSumTreeToRoot P.τ big p

theorem closeUp_run {H a : Nat} {g : Gt K V H} {A B' : Gt K V a} {x y : Id} (hA : A.Is x none) (hB : B'.Is y (some .fresh))
    (sA : Sub A g) (sB : Sub B' g) (ha : a < H) {big : Nat} (hb : H < big) (hI : I P w0 T w ρ (bun P ⟨none, true⟩ g + R)) :
    ∃ (w' : World K V) (g' : Gt K V H), closeUp P big x y w = (.ok (), w') ∧
      I P w0 T w' ρ (bun P ⟨none, true⟩ g' + R) ∧ g'.erase = g.erase ∧ g'.id = g.id ∧ (g.Clean → g'.Clean) ∧ (g.odds = g'.odds + {y} ∧ g'.due = g.due) ∧ g'.st = none ∧
      ∀ {b : Nat} (t : Gt K V b), b < a → Sub t g ∨ Sub t B'.calm → Sub t g' := by
  obtain ⟨D, hD, e⟩ := sB.ctx .top rfl
  replace e : g = D.plug B' := e
  obtain ⟨c1, c2, c3, c4⟩ := hB.calm
  have hid : B'.calm.id = B'.id := by rw [c1.id, hB.id]
  have hcnt : B'.calm.kid = B'.kid := by rw [Gt.kid, Gt.kid, hid, c1.st, hB.st, Gt.cnt, Gt.cnt, c2]
  have sA' : Sub A (D.plug B'.calm) := by
    refine Sub.subst D (Nat.le_refl _) (fun hs => ?_) (e ▸ sA)
    obtain ⟨e', h1⟩ := hs.odd_eq hB
    simp only at h1
    subst h1
    have := hA.dirty
    rcases hB.odd with ⟨rfl, l, rfl⟩ | ⟨n, rfl, r, rfl⟩ <;> simp [Gt.Is, Gt.odLeaf, Gt.odInner] at hA
  have hI1 := hI
  rw [e, bun_plug, add_assoc] at hI1
  obtain ⟨i1, w1, e1, h1⟩ := hI1.calm hB
  obtain ⟨E, hE, e'⟩ := sA'.ctx .top rfl
  replace e' : D.plug B'.calm = E.plug A := e'
  replace h1 : I P w0 T w1 ρ (bun P ⟨none, true⟩ (E.plug A) + R) := h1.eq (by rw [← e', bun_plug, hcnt, add_assoc])
  cases E with
  | top => omega
  | fr p st pre post up =>
    obtain ⟨rfl, hup⟩ := Ctx.dirty_fr.1 hE
    have hp := (h1.eq (by rw [bun_plug, add_assoc] : _ = bun P (Ctx.fr p none pre post up).pos A + ((Ctx.fr p none pre post up).bun P A.kid + R))).parent_of
    rw [hA.id] at hp
    have hpp : (Ctx.fr p none pre post up).pos.parent = some p := rfl
    rw [hpp] at hp
    rw [Ctx.plug, bun_plug, bun_loose] at h1
    obtain ⟨w2, e2, h2⟩ := rearrange_run big up (by have := up.le; omega) (h1.eq (by rw [Gt.kid_inner]; exact add_assoc _ _ _))
    refine ⟨w2, D.plug B'.calm, ?_, h2.eq ?_, ?_, ?_, ?_, ?_, D.plug_st hD c1.st, ?_⟩
    · rw [closeUp, bind_ok i1, bind_ok e1]
      simp only [getN_bind, hp, deref_some_bind]
      exact e2
    · rw [e', Ctx.plug, bun_plug, hup, add_assoc]
    · rw [e, ← hD]; exact Ctx.plug_dirty_erase D (t := B') c2 |>.trans (by rw [hD])
    · rw [e, Ctx.plug_id, Ctx.plug_id, hid]
    · intro hc
      rw [e, Ctx.plug_clean] at hc
      rw [Ctx.plug_clean, c1.st, ← hB.st]
      exact ⟨hc.1, c3 hc.2⟩
    · exact ⟨by rw [e, Ctx.plug_odds, Ctx.plug_odds, c4, add_assoc], by rw [e, Ctx.plug_due, Ctx.plug_due, hB.calm_due]⟩
    · rintro b t hb (ht | ht)
      · refine Sub.subst D hb.le (fun hs => ?_) (e ▸ ht)
        have := hs.odd hB
        omega
      · exact ht.up D hD


theorem Row.plug_post {α : Type} (pre : Hole K α) (t : α) (l : List (K × α)) :
    (Row.plug pre t l).c0 = (Row.plug pre t []).c0 ∧ (Row.plug pre t l).cs = (Row.plug pre t []).cs ++ l := by
  rcases pre with _ | ⟨r, k⟩ <;> simp [Row.plug]

theorem Ctx.pos_fr {i : Id} {st : Option Ref} {pre : Hole K (Gt K V h)} {post : List (K × Gt K V h)} {up : Ctx K V H (h + 1)} :
    (Ctx.fr i st pre post up).pos = Pos.child i := rfl

theorem Ctx.clean_dirty {C : Ctx K V H h} (hC : C.dirty = C) {s : Option Ref} (hc : C.Clean s) (s' : Option Ref) : C.Clean s' := by
  have := Ctx.dirty_clean hc s'
  rwa [hC] at this

/-- Splitting a child: the keys and items stay in the same order. -/
theorem seq_split {A B' t : Gt K V h} {k : K} (hs : A.erase.seq ++ .inr k :: B'.erase.seq = t.erase.seq) (i i' : Id) (st st' : Option Ref)
    (pre : Hole K (Gt K V h)) (post : List (K × Gt K V h)) :
    (Gt.inner i st (Row.plug pre A ((k, B') :: post))).erase.seq = (Gt.inner i' st' (Row.plug pre t post)).erase.seq := by
  rcases pre with _ | ⟨r, k'⟩
  · simp [seq_inner, Row.plug, ← hs]
  · simp [seq_inner, Row.plug, ← hs]

/-- Inserting the right half `B'` of a split node beside the left half `A`, and everything that follows up to the root. -/
theorem insertInner_run : ∀ (fuel : Nat) {H h : Nat} (up : Ctx K V H (h + 1)) {pp : Id} {A B' : Gt K V h} {x y : Id} {pre : Hole K (Gt K V h)}
    {post : List (K × Gt K V h)} {k : K} {items : Nat} {q0 : Option (List (Id × Nat))} {e : DiskNode K V} {n : Nat} {s : Option Ref} {big : Nat}
    {R : B K V} {w : World K V}, up.dirty = up → A.Is x none → B'.Is y (some .fresh) → H + 1 < big → H < fuel + (h + 1) →
    up.Occ P.min P.max → (∀ c ∈ (Row.plug pre A ((k, B') :: post)).kids, c.erase.Occ P.min P.max) →
    up.lo P.min ≤ (Row.plug pre A ((k, B') :: post)).cs.length → (Row.plug pre A ((k, B') :: post)).cs.length ≤ P.max + 1 →
    Ord P.toCmp (up.plug (.inner pp none (Row.plug pre A ((k, B') :: post)))).erase.seq →
    (up.plug (.inner pp none (Row.plug pre A ((k, B') :: post)))).Clean →
    I P w0 T w (some (up.rid pp)) (loose P up.pos pp none items q0 true e (Row.plug pre A post) + (up.bun P ⟨pp, n, s⟩ +
      (bun P (Pos.child pp) B' + (slotB {y} + (slotB {up.rid pp} + R))))) →
    ∃ (w' : World K V) (H' : Nat) (g' : Gt K V H'), (insertHere P.cmp P.τ big fuel pp k (.node y) >>= fun _ => closeUp P big x y) w = (.ok (), w') ∧
      H ≤ H' ∧ H' ≤ H + 1 ∧ I P w0 T w' (some g'.id) (bun P ⟨none, true⟩ g' + (slotB {g'.id} + R)) ∧
      g'.erase.seq = (up.plug (.inner pp none (Row.plug pre A ((k, B') :: post)))).erase.seq ∧
      g'.erase.RootOcc P.min P.max ∧ g'.Clean ∧ ((up.plug (.inner pp none (Row.plug pre A ((k, B') :: post)))).odds = g'.odds + {y} ∧
        g'.due + h ≤ (up.plug (.inner pp none (Row.plug pre A ((k, B') :: post)))).due + (H + 1)) ∧ g'.st = none ∧
      ∀ {b : Nat} (t : Gt K V b), b < h → Sub t A ∨ Sub t B'.calm → Sub t g' := by
  intro fuel
  induction fuel with
  | zero => intro H h up; intros; have := up.le; omega
  | succ fuel ih =>
    intro H h up pp A B' x y pre post k items q0 e n s big R w hup hA hB hb hf hocc hko hlo hhi hord hcl hI
    have iy := hB.id
    obtain ⟨c1, c2, c3, c4⟩ := hB.calm
    have hid : B'.calm.id = B'.id := by rw [c1.id, hB.id]
    -- the row, opened
    obtain ⟨r1, r2⟩ := Row.plug_post pre A post
    obtain ⟨r3, r4⟩ := Row.plug_post pre A ((k, B') :: post)
    have hkids : kidsB P pp (Row.plug pre A ((k, B') :: post)).kids = kidsB P pp (Row.plug pre A post).kids + bun P (Pos.child pp) B' := by
      simp only [Row.kids_plug, List.map_cons, kidsB_append, kidsB_cons]; abel
    have hsl : slotB (K := K) (V := V) (((Row.plug pre A ((k, B') :: post)).kids.map Gt.id : List Id) : Multiset Id) =
        slotB (((Row.plug pre A post).kids.map Gt.id : List Id) : Multiset Id) + slotB {y} := by
      rw [← slotB_add, ← iy]
      congr 1
      simp only [Row.kids_plug, List.map_cons, List.map_append]
      rw [← Multiset.coe_singleton, Multiset.coe_add, Multiset.coe_eq_coe]
      simp only [List.append_assoc, List.cons_append]
      refine List.Perm.append_left _ (List.Perm.cons _ ?_)
      exact (List.perm_append_singleton _ _).symm
    have hKO : KeysOK P (Row.plug pre A ((k, B') :: post)).cs := by
      have h0 := ord_plug hord
      rw [erase_inner] at h0
      have := h0.seps
      rw [Row.map_cs] at this
      exact ⟨(List.pairwise_map.1 this.1), fun p hp => this.2 _ (List.mem_map_of_mem hp)⟩
    have hkk : KeysOK P ((Row.plug pre A []).cs ++ (k, B') :: post) := r4 ▸ hKO
    unfold loose at hI
    have hI2 := (hI.eq (by rw [ownPage_none]; abel : _ = cellB (mkCell P up.pos pp none (.inner items (Row.plug pre A post).c0.id ((Row.plug pre A post).cs.map fun p => (p.1, p.2.id)) q0)) +
      (lruB P.ca pp true + kidsB P pp (Row.plug pre A post).kids + (up.bun P ⟨pp, n, s⟩ + (bun P (Pos.child pp) B' + (slotB {y} + (slotB {up.rid pp} + R))))))).open rfl
    rw [kids_ids] at hI2
    obtain ⟨w1, e1, h1⟩ := (hI2.eq (R' := cellB (mkCell P up.pos pp none (.raw true items false (some (Row.plug pre A ((k, B') :: post)).c0.id) (kvl (Row.plug pre A []).cs ++ kvl post))) +
      (slotB (((Row.plug pre A post).kids.map Gt.id : List Id) : Multiset Id) + (lruB P.ca pp true + kidsB P pp (Row.plug pre A post).kids +
        (up.bun P ⟨pp, n, s⟩ + (bun P (Pos.child pp) B' + (slotB {y} + (slotB {up.rid pp} + R))))))) (by
        rw [← kvl_append, ← r2, r3, ← r1, add_assoc]; rfl)).kvPutIgnore rfl (k := k) (hkk.2 (k, B') (by simp)) (.node y) hkk.lt hkk.gt
    have ee : kvPutIgnore P.cmp pp k (.node y) w = (.ok (), w1) := e1
    replace h1 : I P w0 T w1 (some (up.rid pp)) (cellB (mkCell P up.pos pp none (.raw true items false (some (Row.plug pre A ((k, B') :: post)).c0.id) (kvl (Row.plug pre A ((k, B') :: post)).cs))) +
      (slotB (((Row.plug pre A ((k, B') :: post)).kids.map Gt.id : List Id) : Multiset Id) + (lruB P.ca pp true + kidsB P pp (Row.plug pre A ((k, B') :: post)).kids +
        (up.bun P ⟨pp, n, s⟩ + (slotB {up.rid pp} + R))))) := h1.eq (by
          rw [hkids, hsl, r4, kvl_append, kvl_cons, iy]
          show cellB (mkCell P up.pos pp none (.raw true items false (some (Row.plug pre A ((k, B') :: post)).c0.id) (kvl (Row.plug pre A []).cs ++ (k, .node y) :: kvl post))) + _ = _
          abel)
    have hbody : BodyIs P.toCmp (w1.node pp) w1.ps (.raw true items false (some (Row.plug pre A ((k, B') :: post)).c0.id) (kvl (Row.plug pre A ((k, B') :: post)).cs)) := h1.cell.body
    simp only [insertHere, bind_assoc_run]
    rw [bind_ok ee]
    simp only [getN_bind, hbody.2.1, Bool.false_eq_true, if_false, pure_bind_run]
    have hlen : kvLen pp w1 = (.ok ((kvl (Row.plug pre A ((k, B') :: post)).cs).length : Int), w1) := h1.kvLen rfl
    rw [bind_ok hlen]
    simp only [getT_bind, h1.max_eq, kvl_length]
    by_cases hfull : (Row.plug pre A ((k, B') :: post)).cs.length ≤ P.max
    · rw [if_pos (by exact_mod_cast hfull), pure_bind_run]
      have h2 := (h1.eq (by rw [← kids_ids, ← add_assoc] : _ = cellB (mkCell P up.pos pp none (.raw true items false (some (Row.plug pre A ((k, B') :: post)).c0.id) (kvl (Row.plug pre A ((k, B') :: post)).cs))) +
        slotB (((Row.plug pre A ((k, B') :: post)).c0.id :: ((Row.plug pre A ((k, B') :: post)).cs.map fun p => (p.1, p.2.id)).map Prod.snd : List Id) : Multiset Id) +
        (lruB P.ca pp true + kidsB P pp (Row.plug pre A ((k, B') :: post)).kids + (up.bun P ⟨pp, n, s⟩ + (slotB {up.rid pp} + R))))).close (items := items) rfl
      rw [mkCell_with, hkids] at h2
      obtain ⟨i4, w4, e4, h4⟩ := (h2.eq (by abel : _ = bun P (Pos.child pp) B' + (cellB (mkCell P up.pos pp none (.inner items (Row.plug pre A ((k, B') :: post)).c0.id
          ((Row.plug pre A ((k, B') :: post)).cs.map fun p => (p.1, p.2.id)) none)) + (lruB P.ca pp true + kidsB P pp (Row.plug pre A post).kids +
          (up.bun P ⟨pp, n, s⟩ + (slotB {up.rid pp} + R)))))).calm hB
      have hp := (h4.eq (by rw [Row.kids_plug, kidsB_append, kidsB_cons]; abel : _ = bun P (Pos.child pp) A + (kidsB P pp (Row.kidsH pre) + kidsB P pp (post.map Prod.snd) +
          bun P (Pos.child pp) B'.calm + (cellB (mkCell P up.pos pp none (.inner items (Row.plug pre A ((k, B') :: post)).c0.id
          ((Row.plug pre A ((k, B') :: post)).cs.map fun p => (p.1, p.2.id)) none)) + (lruB P.ca pp true +
          (up.bun P ⟨pp, n, s⟩ + (slotB {up.rid pp} + R))))))).parent_of
      rw [hA.id] at hp
      replace hp : (w4.node x).parent = some pp := hp
      obtain ⟨s3, s4⟩ := Row.plug_post pre A ((k, B'.calm) :: post)
      have hrc : (Row.plug pre A ((k, B'.calm) :: post)).cs.map (fun p => (p.1, p.2.id)) = (Row.plug pre A ((k, B') :: post)).cs.map fun p => (p.1, p.2.id) := by
        rw [s4, r4]; simp [hid]
      obtain ⟨w5, e5, h5⟩ := rearrange_run big up (i := pp) (st := none) (r := Row.plug pre A ((k, B'.calm) :: post)) (items := items) (q0 := none) (b := true) (e := e)
        (n := n) (s := s) (R := slotB {up.rid pp} + R) (by have := up.le; omega) (h4.eq (by
          rw [loose, hrc, s3, ← r3, ownPage_none]
          simp only [Row.kids_plug, List.map_cons, kidsB_append, kidsB_cons]
          abel))
      refine ⟨w5, H, up.plug (.inner pp none (Row.plug pre A ((k, B'.calm) :: post))), ?_, Nat.le_refl _, Nat.le_succ _, ?_, ?_, ?_, ?_, ?_, up.plug_st hup rfl, ?_⟩
      · rw [closeUp, bind_ok i4, bind_ok e4]
        simp only [getN_bind, hp, deref_some_bind]
        exact e5
      · rw [Ctx.plug_id, id_inner, bun_plug]
        exact h5.eq (by rw [hup, add_assoc])
      · rw [Ctx.plug_seq, Ctx.plug_seq, erase_inner, erase_inner]
        simp only [Row.map_plug, List.map_cons, c2]
      · rw [Ctx.plug_occ, erase_inner, Ctx.subOcc_inner]
        refine ⟨hocc, ?_, ?_⟩
        · have := length_plug pre A ((k, B') :: post)
          have := length_plug pre A ((k, B'.calm) :: post)
          simp only [Row.map_cs, List.length_map, List.length_cons] at *
          omega
        · simp only [Row.kids_map, Row.kids_plug, List.map_cons, List.mem_map, List.mem_append, List.mem_cons] at hko ⊢
          rintro _ ⟨c, hc | rfl | rfl | hc, rfl⟩
          · exact hko c (.inl hc)
          · exact hko c (.inr (.inl rfl))
          · rw [c2]; exact hko B' (.inr (.inr (.inl rfl)))
          · exact hko c (.inr (.inr (.inr hc)))
      · rw [Ctx.plug_clean, Clean_inner] at hcl ⊢
        refine ⟨Ctx.clean_dirty hup hcl.1 _, ?_⟩
        have h0 := hcl.2
        simp only [Row.kids_plug, List.map_cons, List.mem_append, List.mem_cons] at h0 ⊢
        rintro c (hc | rfl | rfl | hc)
        · exact h0 c (.inl hc)
        · exact h0 c (.inr (.inl rfl))
        · exact ⟨c3 (h0 B' (.inr (.inr (.inl rfl)))).1, by simp⟩
        · exact h0 c (.inr (.inr (.inr hc)))
      · constructor
        · rw [Ctx.plug_odds, Ctx.plug_odds, odds_inner, odds_inner]
          simp only [Row.kids_plug, List.map_cons, List.map_append, List.sum_append, List.sum_cons, c4]
          abel
        · have := up.le
          rw [Ctx.plug_due, Ctx.plug_due, due_inner, due_inner]
          simp only [Row.kids_plug, List.map_cons, List.map_append, List.sum_append, List.sum_cons, hB.calm_due]
          omega
      · rintro b t hb' (ht | ht)
        · exact (sub_inner (c := A) (by simp) ht).up up hup
        · exact (sub_inner (c := B'.calm) (by simp) ht).up up hup
    · rw [if_neg (by exact_mod_cast hfull)]
      have hl : (Row.plug pre A ((k, B') :: post)).cs.length = P.max + 1 := by omega
      obtain ⟨w2, j, l1, p, l2, e2, el, hl1, h2⟩ := splitNode_inner (q := up.pos) (i := pp) (items := items) (R := up.bun P ⟨pp, n, s⟩ + (slotB {up.rid pp} + R)) hl hKO
        (c0 := (Row.plug pre A ((k, B') :: post)).c0) h1
      have hl2 : l2.length = P.max - P.min := by
        have := congrArg List.length el
        simp only [List.length_append, List.length_cons] at this
        omega
      have hmin : P.min ≤ P.max - P.min ∧ P.max - P.min ≤ P.max ∧ P.min ≤ P.max := by have := P.four; simp only [Par.min]; omega
      have hck := (h2.eq (by rw [bun_loose])).looseCell
      have hroot : (w2.node pp).root = up.pos.root := hck.root
      have hpar : (w2.node pp).parent = up.pos.parent := hck.parent
      have hsame : Row.plug pre A ((k, B') :: post) = ⟨(Row.plug pre A ((k, B') :: post)).c0, l1 ++ p :: l2⟩ := by rw [← el]
      have hkids' : (Row.plug pre A ((k, B') :: post)).kids = ((Row.plug pre A ((k, B') :: post)).c0 :: l1.map Prod.snd) ++ p.2 :: l2.map Prod.snd := by
        rw [hsame]; simp [Row.kids]
      generalize hc0 : (Row.plug pre A ((k, B') :: post)).c0 = c0 at *
      have hseq : (Gt.inner pp none ⟨c0, l1⟩).erase.seq ++ .inr p.1 :: (Gt.odInner j .fresh ⟨p.2, l2⟩).erase.seq =
          (Gt.inner pp none (Row.plug pre A ((k, B') :: post))).erase.seq := by
        rw [hsame]; simp [seq_inner]
      have hodd : (Gt.inner pp none ⟨c0, l1⟩).odds + (Gt.odInner j .fresh ⟨p.2, l2⟩).odds =
          (Gt.inner pp none (Row.plug pre A ((k, B') :: post))).odds + {j} := by
        rw [odds_inner, odds_inner, odds_odInner, hkids']
        simp only [Row.kids, List.map_append, List.sum_append]
        abel
      have hdue : (Gt.inner pp none ⟨c0, l1⟩).due + (Gt.odInner j .fresh ⟨p.2, l2⟩).due =
          (Gt.inner pp none (Row.plug pre A ((k, B') :: post))).due + 1 := by
        rw [due_inner, due_inner, due_odInner, hkids']
        simp only [Row.kids, List.map_append, List.sum_append, Option.isNone_none, if_true]
        omega
      have hoA : (Gt.inner pp none ⟨c0, l1⟩).erase.Occ P.min P.max := by
        rw [erase_inner, occ_inner]
        refine ⟨by simp; omega, ?_⟩
        simp only [Row.kids_map, List.mem_map]
        rintro _ ⟨c, hc, rfl⟩
        exact hko c (hkids' ▸ List.mem_append_left _ hc)
      have hoB : (Gt.odInner j .fresh ⟨p.2, l2⟩).erase.Occ P.min P.max := by
        rw [erase_odInner, occ_inner]
        refine ⟨by simp; omega, ?_⟩
        simp only [Row.kids_map, List.mem_map]
        rintro _ ⟨c, hc, rfl⟩
        exact hko c (hkids' ▸ List.mem_append_right _ hc)
      have hcl' := (up.plug_clean _).1 hcl
      have hcA : (Gt.inner pp none ⟨c0, l1⟩).Clean := by
        rw [Clean_inner] at hcl' ⊢
        exact fun c hc => hcl'.2 c (hkids' ▸ List.mem_append_left _ hc)
      have hcB : (Gt.odInner j .fresh ⟨p.2, l2⟩).Clean := by
        rw [Clean_odInner]
        rw [Clean_inner] at hcl'
        exact fun c hc => (hcl'.2 c (hkids' ▸ List.mem_append_right _ hc)).1
      have hAis : (Gt.inner pp none ⟨c0, l1⟩).Is pp none := ⟨rfl, rfl, rfl⟩
      have hBis : (Gt.odInner j .fresh ⟨p.2, l2⟩).Is j (some .fresh) := ⟨rfl, rfl⟩
      have hpv : P.Valid p.1 := hKO.2 p (by rw [el]; simp)
      have key : ∃ (w3 : World K V) (H1 : Nat) (g1 : Gt K V H1),
          ((if (w2.node pp).root then growRoot P.cmp P.τ pp j p.1 else M.deref (w2.node pp).parent >>= fun d => insertHere P.cmp P.τ big fuel d p.1 (.node j) >>= fun _ =>
            initNodeAsEvicted P.τ j >>= fun _ => markNodeDirty P.τ j) >>= fun _ => getN pp >>= fun m => M.deref m.parent >>= fun d =>
            rearrangePrefixSumTreeToRoot P.τ big d) w2 = (.ok (), w3) ∧ H ≤ H1 ∧ H1 ≤ H + 1 ∧ I P w0 T w3 (some g1.id) (bun P ⟨none, true⟩ g1 + (slotB {g1.id} + R)) ∧
          g1.erase.seq = (up.plug (.inner pp none (Row.plug pre A ((k, B') :: post)))).erase.seq ∧
          g1.erase.RootOcc P.min P.max ∧ g1.Clean ∧ ((up.plug (.inner pp none (Row.plug pre A ((k, B') :: post)))).odds = g1.odds ∧
            g1.due + h ≤ (up.plug (.inner pp none (Row.plug pre A ((k, B') :: post)))).due + (H + 1)) ∧
          ∀ {b : Nat} (t : Gt K V b), b < h + 1 → Sub t (Gt.inner pp none ⟨c0, l1⟩) ∨ Sub t (Gt.inner j none ⟨p.2, l2⟩) → Sub t g1 := by
        rw [hroot, hpar]
        cases up with
        | top =>
          obtain ⟨w3, r, e3, h3⟩ := growRoot_run hAis hBis hpv (big := big) (by omega) (h2.eq (R' := bun P ⟨none, true⟩ (Gt.inner pp none ⟨c0, l1⟩) +
            (bun P ⟨none, false⟩ (Gt.odInner j .fresh ⟨p.2, l2⟩) + (slotB {j} + (slotB {pp} + R)))) (by
              simp only [Ctx.pos, Ctx.bun, Ctx.rid, zero_add]))
          rw [calm_inner] at h3
          refine ⟨w3, _, Gt.inner r none ⟨Gt.inner pp none ⟨c0, l1⟩, [(p.1, Gt.inner j none ⟨p.2, l2⟩)]⟩, e3, Nat.le_succ _, Nat.le_refl _, h3, ?_, ?_, ?_, ?_, ?_⟩
          · rw [Ctx.plug, ← hseq]
            simp [seq_inner]
          · rw [erase_inner, rootOcc_inner]
            have := P.four
            refine ⟨by simp; omega, ?_⟩
            rw [Row.kids_map]
            simp only [Row.kids, List.mem_cons, List.map_cons, List.map_nil, List.not_mem_nil, or_false]
            rintro _ (rfl | rfl)
            · exact hoA
            · exact hoB
          · rw [Clean_inner]
            simp only [Row.kids, List.mem_cons, List.map_cons, List.map_nil, List.not_mem_nil, or_false]
            rintro c (rfl | rfl)
            · exact ⟨hcA, by simp⟩
            · exact ⟨hBis.calm.2.2.1 hcB, by simp⟩
          · have h7 := hBis.calm.2.2.2
            rw [calm_inner] at h7
            rw [h7, ← add_assoc] at hodd
            refine ⟨?_, ?_⟩
            rotate_left
            · rw [Ctx.plug, due_inner (r := ⟨Gt.inner pp none ⟨c0, l1⟩, [(p.1, Gt.inner j none ⟨p.2, l2⟩)]⟩)]
              simp only [Row.kids, List.map_cons, List.map_nil, List.sum_cons, List.sum_nil, add_zero, Option.isNone_none, if_true]
              have : (Gt.inner j none ⟨p.2, l2⟩).due = (Gt.odInner j .fresh ⟨p.2, l2⟩).due := rfl
              omega
            rw [Ctx.plug, ← add_right_cancel hodd]
            show _ = (Gt.inner r none ⟨Gt.inner pp none ⟨c0, l1⟩, [(p.1, Gt.inner j none ⟨p.2, l2⟩)]⟩).odds
            rw [odds_inner (r := ⟨Gt.inner pp none ⟨c0, l1⟩, [(p.1, Gt.inner j none ⟨p.2, l2⟩)]⟩)]
            simp only [Row.kids, List.map_cons, List.map_nil, List.sum_cons, List.sum_nil, add_zero]
          · rintro b t hb' (ht | ht)
            · exact sub_inner (by simp [Row.kids]) ht
            · exact sub_inner (c := Gt.inner j none ⟨p.2, l2⟩) (by simp [Row.kids]) ht
        | fr p2 st2 pre2 post2 up2 =>
          obtain ⟨rfl, hup2⟩ := Ctx.dirty_fr.1 hup
          have hl3 := length_plug pre2 (Gt.inner pp none ⟨c0, l1⟩) ((p.1, Gt.odInner j .fresh ⟨p.2, l2⟩) :: post2)
          have hss := seq_split hseq p2 p2 none none pre2 post2
          have hoo : (Gt.inner p2 none (Row.plug pre2 (Gt.inner pp none ⟨c0, l1⟩) ((p.1, Gt.odInner j .fresh ⟨p.2, l2⟩) :: post2))).odds =
              (Gt.inner p2 none (Row.plug pre2 (Gt.inner pp none (Row.plug pre A ((k, B') :: post))) post2)).odds + {j} := by
            rw [odds_inner, odds_inner]
            simp only [Row.kids_plug, List.map_cons, List.map_append, List.sum_append, List.sum_cons]
            rw [← add_assoc (Gt.odds (Gt.inner pp none ⟨c0, l1⟩)), hodd]
            abel
          have hdd : (Gt.inner p2 none (Row.plug pre2 (Gt.inner pp none ⟨c0, l1⟩) ((p.1, Gt.odInner j .fresh ⟨p.2, l2⟩) :: post2))).due =
              (Gt.inner p2 none (Row.plug pre2 (Gt.inner pp none (Row.plug pre A ((k, B') :: post))) post2)).due + 1 := by
            rw [due_inner, due_inner]
            simp only [Row.kids_plug, List.map_cons, List.map_append, List.sum_append, List.sum_cons]
            omega
          have ho2 := hocc.1
          have ho3 := hocc.2.1
          have ho4 := hocc.2.2
          have hc1 := hcl'.1
          simp only [Ctx.Clean] at hc1
          obtain ⟨w3, H1, g1, e3, t1, t2, t3, t4, t5, t6, t7, -, t8⟩ := ih up2 (pp := p2) (x := pp) (y := j) (A := Gt.inner pp none ⟨c0, l1⟩) (B' := Gt.odInner j .fresh ⟨p.2, l2⟩)
            (pre := pre2) (post := post2) (k := p.1) (items := (Ctx.row pre2 ⟨pp, n, s⟩ post2).total) (big := big) (R := R) (w := w2)
            (e := mkDisk P up2.pos.root (Ctx.row pre2 ⟨pp, n, s⟩ post2).total (Ctx.row pre2 ⟨pp, n, s⟩ post2).disk) hup2 hAis hBis hb (by omega) ho4
            (by
              simp only [Row.kids_plug, List.map_cons, List.mem_append, List.mem_cons]
              rintro c (hc | rfl | rfl | hc)
              · exact ho2 c (List.mem_append_left _ hc)
              · exact hoA
              · exact hoB
              · exact ho2 c (List.mem_append_right _ hc))
            (by rw [hl3, List.length_cons]; omega) (by rw [hl3, List.length_cons]; omega)
            (by rw [Ctx.plug_seq, hss]; rw [Ctx.plug, Ctx.plug_seq] at hord; exact hord)
            (by
              rw [Ctx.plug_clean, Clean_inner]
              refine ⟨hc1.2.2, ?_⟩
              simp only [Row.kids_plug, List.map_cons, List.mem_append, List.mem_cons]
              rintro c (hc | rfl | rfl | hc)
              · exact hc1.1 c (List.mem_append_left _ hc)
              · exact ⟨hcA, by simp⟩
              · exact ⟨hcB, by simp⟩
              · exact hc1.1 c (List.mem_append_right _ hc))
            (h2.eq (by
              simp only [Ctx.bun, innerB, loose, Row.kids_plug, kidsB_append, kidsB_cons, Ctx.rid]
              have := Row.ids_plug pre2 (Gt.inner pp none ⟨c0, l1⟩) n s post2
              rw [id_inner] at this
              rw [Row.body_row, this.1, this.2]
              rw [Ctx.pos_fr]
              show bun P (Pos.child p2) _ + (bun P (Pos.child p2) _ + _) = _
              simp only [ownPage_none, Option.isNone_none]
              abel))
          refine ⟨w3, H1, g1, ?_, t1, t2, t3, ?_, t5, t6, ?_, ?_⟩
          · simp only [Ctx.pos, Pos.child, Bool.false_eq_true, if_false, deref_some_bind]
            simp only [bind_assoc_run]
            exact e3
          · rw [t4, Ctx.plug_seq, hss, Ctx.plug, Ctx.plug_seq]
          · obtain ⟨t7, t9⟩ := t7
            rw [Ctx.plug_odds, hoo, ← add_assoc] at t7
            rw [Ctx.plug_due, hdd] at t9
            rw [Ctx.plug, Ctx.plug_odds, add_right_cancel t7, Ctx.plug_due]
            exact ⟨rfl, by omega⟩
          · intro b t hb' ht
            exact t8 t hb' ht
      obtain ⟨w3, H1, g1, e3, hH1, hH2, h3, q1, q2, q3, q4, q5⟩ := key
      have sA : Sub A g1 := q5 A (by omega) (by
        have : A ∈ (Row.plug pre A ((k, B') :: post)).kids := by simp
        rw [hkids'] at this
        rcases List.mem_append.1 this with h | h
        · exact .inl (sub_inner h (sub_self A))
        · exact .inr (sub_inner h (sub_self A)))
      have sB : Sub B' g1 := q5 B' (by omega) (by
        have : B' ∈ (Row.plug pre A ((k, B') :: post)).kids := by simp
        rw [hkids'] at this
        rcases List.mem_append.1 this with h | h
        · exact .inl (sub_inner h (sub_self B'))
        · exact .inr (sub_inner h (sub_self B')))
      obtain ⟨w4, g2, e4, h4, z1, z2, z3, z4, z6, z5⟩ := closeUp_run hA hB sA sB (by have := up.le; omega) (big := big) (by omega) h3
      refine ⟨w4, H1, g2, ?_, hH1, hH2, ?_, ?_, ?_, z3 q3, ?_, z6, ?_⟩
      · have e5 := bind_ok (f := fun _ => closeUp P big x y) e3
        rw [e4] at e5
        simp only [bind_assoc_run, Int.toNat_natCast]
        rw [bind_ok e2]
        simp only [bind_assoc_run, getN_bind] at e5 ⊢
        exact e5
      · rw [z2]; exact h4
      · rw [z1, q1]
      · rw [z1]; exact q2
      · exact ⟨by rw [q4.1, z4.1], by rw [z4.2]; exact q4.2⟩
      · rintro b t hb' (ht | ht)
        · refine z5 t hb' (.inl (q5 t (by omega) ?_))
          have : A ∈ (Row.plug pre A ((k, B') :: post)).kids := by simp
          rw [hkids'] at this
          rcases List.mem_append.1 this with h | h
          · exact .inl (sub_inner h ht)
          · exact .inr (sub_inner h ht)
        · exact z5 t hb' (.inr ht)


/-! ### The leaf -/

theorem allLt_leafKv {cmp : Compare K} {k : K} {l : List (K × V)} (h : AllLt cmp l k) : AllLt cmp (leafKv l) k := by
  intro p hp
  obtain ⟨p', hp', rfl⟩ := List.mem_map.1 hp
  exact h p' hp'

theorem split_absent {l : List (K × V)} (hs : Spec.Sorted P.cmp l) (hv : AllValid P.Valid l) {key : K} (hk : P.Valid key) (hh : has P.cmp key l = false) :
    ∃ a b, l = a ++ b ∧ AllLt P.cmp a key ∧ AllGt P.cmp key b ∧ below P.cmp key l = a ∧ above P.cmp key l = b := by
  obtain ⟨a, b, rfl, h1, h2⟩ := split_key P.toCmp hs hv hk
  have hlt : AllLt P.cmp a key := by
    intro p hp
    have hvp := hv p (List.mem_append_left _ hp)
    have he : eqb P.cmp key p.1 = false := by
      cases h : eqb P.cmp key p.1 with
      | false => rfl
      | true => rw [has_iff.2 ⟨p, List.mem_append_left _ hp, h⟩] at hh; cases hh
    have := P.law.eqb_eq_lt hk hvp
    rw [he, h1 p hp] at this
    simpa using this
  refine ⟨a, b, rfl, hlt, h2, ?_, ?_⟩
  · rw [below_append, below_eq_self hlt, below_eq_nil P.law (AllValid_append.1 hv).2 hk h2, List.append_nil]
  · rw [above_append, above_eq_self h2, above_eq_nil P.law (AllValid_append.1 hv).1 hk hlt, List.nil_append]

theorem ord_insert {C : Ctx K V H h} {a b : List (K × V)} {key : K} {v : V} (hk : P.Valid key) (hf : C.Fits P key) (ha : AllLt P.cmp a key)
    (hb : AllGt P.cmp key b) (ho : Ord P.toCmp (C.lseq ++ (a ++ b).map Sum.inl ++ C.rseq)) :
    Ord P.toCmp (C.lseq ++ (a ++ (key, v) :: b).map Sum.inl ++ C.rseq) := by
  have e0 : C.lseq ++ (a ++ b).map Sum.inl ++ C.rseq = (C.lseq ++ a.map Sum.inl) ++ (b.map Sum.inl ++ C.rseq) := by simp
  have e1 : C.lseq ++ (a ++ (key, v) :: b).map Sum.inl ++ C.rseq = (C.lseq ++ a.map Sum.inl) ++ .inl (key, v) :: (b.map Sum.inl ++ C.rseq) := by simp
  rw [e0] at ho
  rw [e1]
  have hl : ∀ x ∈ C.lseq ++ a.map Sum.inl, Before P.toCmp x (.inl (key, v)) := by
    intro x hx
    rcases List.mem_append.1 hx with hx | hx
    · cases x with
      | inl p => exact (hf.1 _ hx).2 p rfl
      | inr k => exact (hf.1 _ hx).1
    · obtain ⟨p, hp, rfl⟩ := List.mem_map.1 hx
      exact ha p hp
  have hr : ∀ x ∈ b.map Sum.inl ++ C.rseq, Before P.toCmp (.inl (key, v)) x := by
    intro x hx
    rcases List.mem_append.1 hx with hx | hx
    · obtain ⟨p, hp, rfl⟩ := List.mem_map.1 hx
      exact hb p hp
    · cases x with
      | inl p => exact hf.2 _ hx
      | inr k => exact hf.2 _ hx
  constructor
  · obtain ⟨p1, p2, p3⟩ := List.pairwise_append.1 ho.1
    refine List.pairwise_append.2 ⟨p1, List.pairwise_cons.2 ⟨hr, p2⟩, ?_⟩
    intro x hx y hy
    rcases List.mem_cons.1 hy with rfl | hy
    · exact hl x hx
    · exact p3 x hx y hy
  · intro x hx
    rcases List.mem_append.1 hx with hx | hx
    · exact ho.2 x (List.mem_append_left _ hx)
    · rcases List.mem_cons.1 hx with rfl | hx
      · exact hk
      · exact ho.2 x (List.mem_append_right _ hx)

/-- The first key of the right half becomes the key above. -/
theorem ord_split {L Z : List ((K × V) ⊕ K)} {l1 l2 : List (K × V)} {p : K × V} (hne : l1 ≠ []) (ho : Ord P.toCmp (L ++ (l1 ++ p :: l2).map Sum.inl ++ Z)) :
    Ord P.toCmp (L ++ (l1.map Sum.inl ++ .inr p.1 :: (p :: l2).map Sum.inl) ++ Z) := by
  have e0 : L ++ (l1 ++ p :: l2).map Sum.inl ++ Z = (L ++ l1.map Sum.inl) ++ .inl p :: (l2.map Sum.inl ++ Z) := by simp
  have e1 : L ++ (l1.map Sum.inl ++ .inr p.1 :: (p :: l2).map Sum.inl) ++ Z = (L ++ l1.map Sum.inl) ++ .inr p.1 :: .inl p :: (l2.map Sum.inl ++ Z) := by simp
  rw [e0] at ho
  rw [e1]
  have hvp : P.Valid p.1 := ho.2 (.inl p) (by simp)
  obtain ⟨p1, p2, p3⟩ := List.pairwise_append.1 ho.1
  obtain ⟨p4, p5⟩ := List.pairwise_cons.1 p2
  have hl : ∀ x ∈ L ++ l1.map Sum.inl, Before P.toCmp x (.inr p.1) := by
    intro x hx
    have hb := p3 x hx (.inl p) (by simp)
    have hvx := ho.2 x (List.mem_append_left _ hx)
    cases x with
    | inl q => exact hb
    | inr k =>
      obtain ⟨q, l1', rfl⟩ := List.exists_cons_of_ne_nil hne
      have hxL : Sum.inr k ∈ L := by simpa using hx
      have h1 : ltb P.cmp q.1 k = false := (List.pairwise_append.1 p1).2.2 _ hxL (.inl q) (by simp)
      have h2 : ltb P.cmp q.1 p.1 = true := p3 (.inl q) (by simp) (.inl p) (by simp)
      exact P.law.nlt_lt_trans hvx (ho.2 (.inl q) (by simp)) hvp h1 h2
  constructor
  · refine List.pairwise_append.2 ⟨p1, List.pairwise_cons.2 ⟨?_, p2⟩, ?_⟩
    · intro x hx
      rcases List.mem_cons.1 hx with rfl | hx
      · exact P.law.ltb_irrefl hvp
      · have hb := p4 x hx
        have hvx := ho.2 x (List.mem_append_right _ (List.mem_cons_of_mem _ hx))
        cases x with
        | inl q => exact P.law.ltb_asymm hvp hvx hb
        | inr k => exact hb
    · intro x hx y hy
      rcases List.mem_cons.1 hy with rfl | hy
      · exact hl x hx
      · exact p3 x hx y hy
  · intro x hx
    rcases List.mem_append.1 hx with hx | hx
    · exact ho.2 x (List.mem_append_left _ hx)
    · rcases List.mem_cons.1 hx with rfl | hx
      · exact hvp
      · exact ho.2 x (List.mem_append_right _ hx)

/-- `insertHere` at a leaf. -/
theorem insertLeaf_run {g : Gt K V H} (hr : Rest P w0 T R g w) {C : Ctx K V H 0} {i : Id} {st : Option Ref} {w1 : World K V} {fuel : Nat} {a b : List (K × V)}
    {key : K} (value : V) (hf : H + P.max + 1 < fuel) (hk : P.Valid key) (hfit : C.Fits P key) (ha : AllLt P.cmp a key) (hb : AllGt P.cmp key b)
    (hl : AtLeaf P w0 T (some g.id) (slotB {g.id} + R) g C i st (a ++ b) w1) :
    ∃ (w' : World K V) (H' : Nat) (g' : Gt K V H'), insertHere P.cmp P.τ fuel fuel i key (.item value) w1 = (.ok (), w') ∧ H' ≤ H + 1 ∧
      g'.erase.flat = C.lflat ++ (a ++ (key, value) :: b) ++ C.rflat ∧ (g'.st = none ∧ g'.due ≤ g.due + (2 * H + 3)) ∧ Rest P w0 T R g' w' := by
  obtain ⟨hs, hI⟩ := hl
  have hid : C.rid i = g.id := by rw [← hs.id, Ctx.plug_id]; rfl
  have hue := fun l' => leaf_due (l' := l') hs hr.odds
  have hz := hr.odds
  have hc := hr.occ
  have ho := hr.ord
  have hcl := hs.clean hr.clean
  rw [← hs.odds, Ctx.plug_odds, odds_leaf, add_zero] at hz
  rw [← hs.erase, Ctx.plug_occ] at hc
  rw [← hs.erase, Ctx.plug_seq, erase_leaf, seq_leaf] at ho
  rw [Ctx.plug_clean] at hcl
  have ho' := ord_insert (v := value) hk hfit ha hb ho
  obtain ⟨fuel, rfl⟩ : ∃ f, fuel = f + 1 := ⟨fuel - 1, by omega⟩
  rw [bun_leaf, leafB, add_assoc, add_assoc] at hI
  obtain ⟨left, h1⟩ := hI.openLeaf rfl
  obtain ⟨w2, e2, h2⟩ := (h1.eq (R' := cellB (mkCell P C.pos i st (.raw true (a ++ b).length true left (leafKv a ++ leafKv b))) + _) (by rw [← leafKv_append]; rfl)).kvPutIgnore
    rfl (k := key) hk (.item value) (allLt_leafKv ha) (allGt_leafKv hb)
  have ee : kvPutIgnore P.cmp i key (.item value) w1 = (.ok (), w2) := e2
  have h3 := (h2.eq (R' := cellB (mkCell P C.pos i st (.raw true (a ++ b).length true left (leafKv (a ++ (key, value) :: b)))) + _) (by rw [leafKv_append]; rfl)).closeLeaf
    (l := a ++ (key, value) :: b) rfl
  have hleaf : (w2.node i).leaf = true := h3.cell.body.2.1
  obtain ⟨w3, e3, h4⟩ := updateLeaf_run C (l := a ++ (key, value) :: b) (n := (a ++ b).length) (fuel := fuel + 1) (by omega) hc.1.slim (h3.eq (by
    rw [mkCell_with, ← add_assoc, ← add_assoc]; rfl)) (by simp)
  simp only [insertHere, bind_assoc_run]
  rw [bind_ok ee]
  simp only [getN_bind, hleaf, if_true]
  rw [bind_ok e3]
  have hL := h4.isLeaf
  rw [bind_ok (kvLen_run hL.kv), leafKv_length]
  simp only [getT_bind, h4.max_eq]
  generalize hl' : a ++ (key, value) :: b = l' at *
  have hlen : l'.length = (a ++ b).length + 1 := by rw [← hl']; simp; omega
  by_cases hfull : l'.length ≤ P.max
  · rw [if_pos (by exact_mod_cast hfull)]
    refine ⟨w3, H, C.dirty.plug (.leaf i none l'), rfl, Nat.le_succ _, ?_, ⟨Ctx.plug_st _ (Ctx.dirty_dirty _) rfl, by have := hue l'; omega⟩, ?_, ?_, ?_, ?_, ?_⟩
    · rw [Ctx.plug_flat, Ctx.dirty_lflat, Ctx.dirty_rflat, erase_leaf, flat_leaf]
    · rw [Ctx.plug_id, Ctx.dirty_rid, id_leaf, hid, bun_plug, Ctx.dirty_pos]
      exact h4.eq (add_assoc _ _ _).symm
    · rw [Ctx.plug_clean]
      exact ⟨Ctx.dirty_clean hcl.1 _, by simp⟩
    · rw [Ctx.plug_odds, Ctx.dirty_odds, hz]; rfl
    · rw [Ctx.plug_occ, Ctx.dirty_subOcc]
      refine ⟨Ctx.dirty_occ hc.1, ?_⟩
      have := hc.2
      cases C with
      | top => rw [Ctx.SubOcc, erase_leaf, rootOcc_leaf] at this ⊢; omega
      | fr => rw [Ctx.SubOcc, erase_leaf, occ_leaf] at this ⊢; omega
    · rw [Ctx.plug_seq, Ctx.dirty_lseq, Ctx.dirty_rseq]; exact ho'
  · have hll : l'.length = P.max + 1 := by
      have := hc.2
      cases C with
      | top => rw [Ctx.SubOcc, erase_leaf, rootOcc_leaf] at this; omega
      | fr => rw [Ctx.SubOcc, erase_leaf, occ_leaf] at this; omega
    obtain ⟨hss, hvv⟩ := Ord.leaf (l := l') (by rw [seq_leaf]; exact ho'.left.right)
    obtain ⟨w4, j, l1, p, l2, e4, el, hl1, h5⟩ := splitNode_leaf hll hss hvv h4
    rw [if_neg (by exact_mod_cast hfull), Int.toNat_natCast]
    rw [bind_ok e4]
    simp only [getN_bind, h5.isLeaf.root, h5.isLeaf.parent]
    have hpv : P.Valid p.1 := hvv p (by rw [el]; simp)
    have hl2 : (p :: l2).length = P.max + 1 - P.min := by
      have := congrArg List.length el
      rw [List.length_append] at this
      omega
    have hmin : P.min ≤ P.max + 1 - P.min ∧ P.max + 1 - P.min ≤ P.max ∧ P.min ≤ P.max ∧ 0 < P.min := by have := P.four; simp only [Par.min]; omega
    have hAis : (Gt.leaf i none l1).Is i none := ⟨rfl, rfl, rfl⟩
    have hBis : (Gt.odLeaf j .fresh (p :: l2)).Is j (some .fresh) := ⟨rfl, rfl⟩
    have hoA : (Gt.leaf i none l1).erase.Occ P.min P.max := by rw [erase_leaf, occ_leaf]; omega
    have hoB : (Gt.odLeaf j .fresh (p :: l2)).erase.Occ P.min P.max := by rw [erase_odLeaf, occ_leaf]; omega
    have ho2 := ord_split (p := p) (l1 := l1) (l2 := l2) (by rintro rfl; simp at hl1; omega) (el ▸ ho')
    cases C with
    | top =>
      obtain ⟨w5, r, e5, h6⟩ := growRoot_run hAis hBis hpv (big := fuel + 1) (by omega) (h5.eq (R' := bun P ⟨none, true⟩ (Gt.leaf i none l1) +
        (bun P ⟨none, false⟩ (Gt.odLeaf j .fresh (p :: l2)) + (slotB {j} + (slotB {i} + R)))) (by
          rw [← hid]
          simp only [Ctx.pos, Ctx.bun, Ctx.rid, Ctx.dirty, zero_add]))
      rw [calm_leaf] at h6
      refine ⟨w5, 1, Gt.inner r none ⟨Gt.leaf i none l1, [(p.1, Gt.leaf j none (p :: l2))]⟩, ?_, by omega, ?_, ⟨rfl, ?_⟩, h6, ?_, ?_, ?_, ?_⟩
      rotate_left 2
      · rw [due_inner]
        simp [Row.kids, due_leaf]
      rotate_right 2
      · simp only [Ctx.pos, if_true]
        exact e5
      · simp [Ctx.lflat, Ctx.rflat, Row.kids, el]
      · rw [Clean_inner]
        simp [Row.kids]
      · rw [odds_inner]
        simp [Row.kids]
      · rw [erase_inner, rootOcc_inner]
        have := P.four
        refine ⟨by simp; omega, ?_⟩
        rw [Row.kids_map]
        simp only [Row.kids, List.mem_cons, List.map_cons, List.map_nil, List.not_mem_nil, or_false]
        rintro _ (rfl | rfl)
        · exact hoA
        · exact hoB
      · have hq : (Gt.inner r none ⟨Gt.leaf i none l1, [(p.1, Gt.leaf j none (p :: l2))]⟩).erase.seq = [] ++ (l1.map Sum.inl ++ .inr p.1 :: (p :: l2).map Sum.inl) ++ [] := by
          simp [seq_inner]
        rw [hq]; exact ho2
    | fr p2 st2 pre2 post2 up2 =>
      have hl3 := length_plug pre2 (Gt.leaf i none l1) ((p.1, Gt.odLeaf j .fresh (p :: l2)) :: post2)
      have hq1 := hc.1.1
      have hq2 := hc.1.2.1
      have hq3 := hc.1.2.2
      have hc1 := hcl.1
      simp only [Ctx.Clean] at hc1
      have hseq : (up2.dirty.plug (.inner p2 none (Row.plug pre2 (Gt.leaf i none l1) ((p.1, Gt.odLeaf j .fresh (p :: l2)) :: post2)))).erase.seq =
          (Ctx.fr p2 st2 pre2 post2 up2).lseq ++ (l1.map Sum.inl ++ .inr p.1 :: (p :: l2).map Sum.inl) ++ (Ctx.fr p2 st2 pre2 post2 up2).rseq := by
        rw [Ctx.plug_seq, Ctx.dirty_lseq, Ctx.dirty_rseq, erase_inner]
        rcases pre2 with _ | ⟨r2, k2⟩ <;> simp [Ctx.lseq, Ctx.rseq, seq_inner, Row.plug, Row.mapH, List.flatMap_map]
      obtain ⟨w5, H1, g1, e5, t1, t2, t3, t4, t5, t6, t7, t8, -⟩ := insertInner_run fuel up2.dirty (P := P) (w0 := w0) (T := T) (pp := p2) (x := i) (y := j) (A := Gt.leaf i none l1) (B' := Gt.odLeaf j .fresh (p :: l2))
        (pre := pre2) (post := post2) (k := p.1) (items := (Ctx.row pre2 (Gt.leaf i none l').kid post2).total) (big := fuel + 1) (R := R) (w := w4)
        (n := (Ctx.row pre2 (Gt.leaf i none l').kid post2).total) (s := none)
        (q0 := some ((Row.kidsH pre2).map (fun t => (t.id, t.cnt)) ++ (i, l'.length) :: post2.map fun p => (p.2.id, p.2.cnt)))
        (e := mkDisk P up2.pos.root (Ctx.row pre2 (Gt.leaf i none l').kid post2).total (Ctx.row pre2 (Gt.leaf i none l').kid post2).disk) (Ctx.dirty_dirty _) hAis hBis (by omega) (by omega)
        (Ctx.dirty_occ hq3)
        (by
          simp only [Row.kids_plug, List.map_cons, List.mem_append, List.mem_cons]
          rintro c (hc | rfl | rfl | hc)
          · exact hq1 c (List.mem_append_left _ hc)
          · exact hoA
          · exact hoB
          · exact hq1 c (List.mem_append_right _ hc))
        (by rw [hl3, List.length_cons, Ctx.dirty_lo]; omega) (by rw [hl3, List.length_cons]; omega)
        (by rw [hseq]; exact ho2)
        (by
          rw [Ctx.plug_clean, Clean_inner]
          refine ⟨Ctx.dirty_clean hc1.2.2 _, ?_⟩
          simp only [Row.kids_plug, List.map_cons, List.mem_append, List.mem_cons]
          rintro c (hc | rfl | rfl | hc)
          · exact ⟨(hc1.1 c (List.mem_append_left _ hc)).1, by simp⟩
          · exact ⟨by simp, by simp⟩
          · exact ⟨by simp, by simp⟩
          · exact ⟨(hc1.1 c (List.mem_append_right _ hc)).1, by simp⟩)
        (by
          have hrid : up2.dirty.rid p2 = g.id := by rw [Ctx.dirty_rid]; exact hid
          rw [hrid]
          exact h5.eq (by
            simp only [Ctx.dirty, Ctx.bun, innerB, loose, Row.kids_plug, kidsB_append, kidsB_cons]
            have := Row.ids_plug pre2 (Gt.leaf i none l1) l'.length none post2
            rw [id_leaf] at this
            rw [show (Gt.leaf i none l').kid = ⟨i, l'.length, none⟩ from rfl, Row.body_row, this.1, this.2]
            rw [Ctx.pos_fr]
            show bun P (Pos.child p2) _ + (bun P (Pos.child p2) _ + _) = _
            simp only [ownPage_none, Option.isNone_none, Ctx.dirty_pos]
            abel))
      obtain ⟨t7, t9⟩ := t7
      refine ⟨w5, H1, g1, ?_, t2, ?_, ⟨t8, ?_⟩, t3, t6, ?_, t5, ?_⟩
      rotate_left 2
      · have h9 := hue l'
        rw [Ctx.dirty, Ctx.plug] at h9
        rw [Ctx.plug_due, due_inner] at t9 h9
        simp only [Row.kids_plug, List.map_cons, List.map_append, List.sum_append, List.sum_cons, due_leaf, due_odLeaf] at t9 h9
        omega
      rotate_right 2
      · simp only [Ctx.pos, Pos.child, Bool.false_eq_true, if_false, deref_some_bind]
        simp only [bind_assoc_run]
        exact e5
      · rw [← pick_seq, t4, pick_seq, Ctx.plug_flat, erase_inner, el]
        simp [Ctx.lflat, Ctx.rflat, List.flatMap_map]
      · rw [Ctx.plug_odds, Ctx.dirty_odds, odds_inner] at t7
        simp only [Row.kids_plug, List.map_cons, List.map_append, List.sum_append, List.sum_cons, odds_leaf, odds_odLeaf, zero_add] at t7
        simp only [Ctx.odds] at hz
        rw [List.map_map, show (Gt.odds ∘ Prod.snd : K × Gt K V 0 → _) = fun p => p.2.odds from rfl] at t7
        refine add_right_cancel (b := ({j} : Multiset Id)) ?_
        rw [← t7, ← hz]
        abel
      · rw [t4, hseq]; exact ho2


theorem withErr_ok {α : Type} {a : α} {m : M K V Unit} {w' : World K V} (h : m w = (.ok (), w')) : withErr a m w = (.ok (a, none), w') := by
  unfold withErr
  rw [bind_ok (attempt_ok h)]; rfl

/-- `Put` -/
theorem put_run {g : Gt K V H} (hr : Rest P w0 T R g w) {fuel : Nat} (hf : H + P.max + 1 < fuel) (key : K) (value : V) (hkv : P.Valid key ∨ g.erase.flat ≠ []) :
    WritePost P w0 T R g (.put key value) (step P.cmp P.τ fuel (.put key value) w) := by
  simp only [step, put, bind_assoc_run, WritePost, stepE, Op.key?]
  rw [bind_ok hr.root]
  refine (hr.byKey false key (by omega)).bind ?_ ?_
  · rintro e w' ⟨h1, h2⟩
    exact ⟨h1.imp_right (fun h => ⟨by simp [h.1], key, rfl, h.2⟩), h2⟩
  · rintro a w' ⟨C, i, st, l, rfl, hfit, hv, h1⟩
    have hsame := hr.atLeaf h1
    have hfl := h1.flat
    obtain ⟨hs, hvl⟩ := h1.ord hr.ord
    obtain ⟨tr, ht1, ht2, ht3⟩ := h1.2.isLeaf.kv
    dsimp only
    rw [bind_ok (kvOf_run ht1)]
    by_cases hk : P.Valid key
    · rw [LLRB.Tree.getByKey_spec P.law hk ht2.valid ht2.sorted, ht3, find_leafKv]
      have hval := hfl ▸ hr.ord.flat.2
      have hhas : has P.cmp key g.erase.flat = has P.cmp key l := by
        rw [hfl]; exact around_has P.law hk hval (hfit hk).lt (hfit hk).gt
      rw [hr.rejects hk]
      cases hq : find P.cmp key l with
      | some p =>
        have hh : has P.cmp key g.erase.flat = true := by rw [hhas, has, hq]; rfl
        refine Res.ok rfl ⟨by simp [AgreesE, Spec.step, hh], ?_, fun _ _ => hsame⟩
        have := hsame.now (d := opDue H (.put key value))
        simpa [Spec.step, hh] using this
      | none =>
        have hh : has P.cmp key l = false := by rw [has, hq]; rfl
        obtain ⟨a, b, rfl, ha, hb, e1, e2⟩ := split_absent hs hvl hk hh
        obtain ⟨w2, H', g', e3, h4, h5, h7, h6⟩ := insertLeaf_run hr value hf hk (hfit hk) ha hb h1
        refine Res.ok (by exact bind_ok (withErr_ok e3)) ⟨by simp [AgreesE, Spec.step, hhas, hh], .inr ⟨H', g', h4, ?_, h7, h6⟩, fun _ h => absurd rfl h⟩
        rw [h5, hfl]
        rw [hfl] at hhas
        simp only [Spec.step, hhas, hh, Bool.false_eq_true, if_false, around_below P.law hk hval (hfit hk).lt (hfit hk).gt,
          around_above P.law hk hval (hfit hk).lt (hfit hk).gt, e1, e2]
        simp
    · obtain ⟨e1, -⟩ := h1.invalid (hv.resolve_left hk)
      have hl := hkv.resolve_left hk
      rw [e1] at hl
      obtain ⟨e, he, kx, -, hkx⟩ := LLRB.Tree.getByKey_invalid P.law hk (t := tr) (by rintro rfl; exact hl (by simpa [leafKv] using ht3.symm))
      rw [he, e1]
      exact Res.err rfl ⟨.inr ⟨by rw [LLRB.Tree.rejects_invalid P.law hk hl]; simp, key, rfl, kx.1, hkx⟩, hsame⟩


end

end SM.BT

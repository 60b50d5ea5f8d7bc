import Verif.BTree.Assert

/-! Loading nodes from disk. -/

namespace SM.BT

open Spec (at? below above)

variable {K V : Type}

/-! ### Order of items and separators -/

/-- The key of an item, or a separator. -/
def skey : (K × V) ⊕ K → K
  | .inl p => p.1
  | .inr k => k

/-- Items increase strictly; a separator is above what is to its left and not above what is to its right. -/
def Before (C : Cmp K) : (K × V) ⊕ K → (K × V) ⊕ K → Prop
  | .inr k, .inl p => ltb C.cmp p.1 k = false
  | a, b => ltb C.cmp (skey a) (skey b) = true

/-- In order, all keys accepted by the compare function. -/
def Ord (C : Cmp K) (s : List ((K × V) ⊕ K)) : Prop := s.Pairwise (Before C) ∧ ∀ x ∈ s, C.Valid (skey x)

theorem Ord.sub {C : Cmp K} {s t : List ((K × V) ⊕ K)} (h : Ord C s) (ht : t.Sublist s) : Ord C t :=
  ⟨h.1.sublist ht, fun x hx => h.2 x (ht.subset hx)⟩

theorem Ord.left {C : Cmp K} {s t : List ((K × V) ⊕ K)} (h : Ord C (s ++ t)) : Ord C s := h.sub (List.sublist_append_left _ _)
theorem Ord.right {C : Cmp K} {s t : List ((K × V) ⊕ K)} (h : Ord C (s ++ t)) : Ord C t := h.sub (List.sublist_append_right _ _)

theorem Ord.leaf {C : Cmp K} {l : List (K × V)} (h : Ord C (Pt.leaf l).seq) : Spec.Sorted C.cmp l ∧ AllValid C.Valid l := by
  simp only [seq_leaf] at h
  constructor
  · have := h.1
    rw [List.pairwise_map] at this
    exact this
  · intro p hp
    exact h.2 (.inl p) (List.mem_map_of_mem hp)

theorem Ord.seps {C : Cmp K} {h : Nat} {r : Row K (Pt K V h)} (hr : Ord C (Pt.inner r).seq) :
    r.cs.Pairwise (fun a b => ltb C.cmp a.1 b.1 = true) ∧ ∀ p ∈ r.cs, C.Valid p.1 := by
  rw [seq_inner] at hr
  have := hr.right.sub (t := r.cs.map fun p => .inr p.1) (by
    generalize r.cs = l
    induction l with
    | nil => simp
    | cons p l ih =>
      simp only [List.map_cons, List.flatMap_cons, List.cons_append]
      exact (ih.trans (List.sublist_append_right _ _)).cons_cons _)
  constructor
  · have h1 := this.1
    rw [List.pairwise_map] at h1
    exact h1
  · intro p hp
    exact this.2 (.inr p.1) (List.mem_map.2 ⟨p, hp, rfl⟩)

theorem Ord.kid {C : Cmp K} {h : Nat} {r : Row K (Pt K V h)} (hr : Ord C (Pt.inner r).seq) {t : Pt K V h} (ht : t ∈ r.kids) :
    Ord C t.seq := by
  rw [seq_inner] at hr
  simp only [Row.kids, List.mem_cons, List.mem_map] at ht
  rcases ht with rfl | ⟨p, hp, rfl⟩
  · exact hr.left
  · refine hr.right.sub ?_
    obtain ⟨a, b, e⟩ := List.append_of_mem hp
    rw [e]
    simp only [List.flatMap_append, List.flatMap_cons, List.cons_append]
    exact ((List.sublist_append_left _ _).trans (List.sublist_cons_self _ _)).trans (List.sublist_append_right _ _)

/-! ### Client calls -/

/-- The errors of failing reads, which occur only if the client's callbacks fail. -/
def Faulty (w : World K V) (e : Err) : Prop :=
  (e = .getNode ∧ ∃ n, w.env.getFails n = true) ∨ (e = .codec ∧ ∃ n, w.env.unpackFails n = true)

section
variable {P : Par K} {w0 : World K V} {T : Tot K V} {w : World K V} {ρ : Option Id}
  {R R' : B K V} {c c' : Cell K V}

theorem I.env (h : I P w0 T w ρ R) {v : Env} (h1 : v.getFails = w.env.getFails) (h2 : v.unpackFails = w.env.unpackFails)
    (h3 : (v.putLoc, v.packFails) = (w.env.putLoc, w.env.packFails)) (h4 : v.discardFails = w.env.discardFails) (h5 : v.puts = w.env.puts)
    (h6 : v.discards = w.env.discards) : I P w0 T { w with env := v } ρ R :=
  h.step ⟨⟨⟨le_refl _, fun _ _ => rfl, rfl, rfl, rfl, h1, h2, h3, h4, rfl, rfl⟩, rfl, rfl, h5, h6⟩, rfl⟩
    (h.st.same rfl rfl rfl) ⟨h.lru.is, h.lru.nodup, h.lru.lt⟩ rfl

theorem I.unpack (h : I P w0 T w ρ R) :
    Res (unpack w) (fun _ w' => I P w0 T w' ρ R) (fun e w' => Faulty w0 e ∧ I P w0 T w' ρ R) := by
  unfold BT.unpack
  split
  · rename_i hf
    exact ⟨.inr ⟨rfl, _, by rw [← h.evo.unpF]; exact hf⟩, h.env rfl rfl rfl rfl rfl rfl⟩
  · exact h.env rfl rfl rfl rfl rfl rfl

theorem I.getNode (h : I P w0 T w ρ R) {p : Ref × DiskNode K V} (hp : p ∈ R.2.2.1) :
    Res (getNode p.1 w) (fun d w' => d = p.2 ∧ I P w0 T w' ρ R) (fun e w' => Faulty w0 e ∧ I P w0 T w' ρ R) := by
  unfold BT.getNode
  split
  · rename_i hf
    exact ⟨.inl ⟨rfl, _, by rw [← h.evo.getF]; exact hf⟩, h.env rfl rfl rfl rfl rfl rfl⟩
  · rw [(h.page hp).1]
    exact ⟨rfl, h.env rfl rfl rfl rfl rfl rfl⟩

theorem I.loadMax (h : I P w0 T w ρ R) (root : Bool) (items : Nat) (b : DiskBody K V) :
    Res (loadMax P.τ (mkDisk P root items b) w) (fun _ w' => I P w0 T w' ρ R) (fun e w' => Faulty w0 e ∧ I P w0 T w' ρ R) := by
  unfold BT.loadMax
  cases root
  · exact h
  · simp only [mkDisk, if_true]
    refine h.unpack.bind (fun _ _ h => h) ?_
    intro _ w1 h1
    have e : (w1.setT P.τ { w1.trees P.τ with min := P.max / 2, max := P.max }) = w1 := by
      have : ({ w1.trees P.τ with min := P.max / 2, max := P.max } : TreeS) = w1.trees P.τ := by
        have h2 := h1.min; have h3 := h1.max
        unfold Par.min at h2
        rw [← h2, ← h3]
      rw [this]
      unfold World.setT
      have : upd w1.trees P.τ (w1.trees P.τ) = w1.trees := by
        funext i; by_cases hi : i = P.τ
        · subst hi; simp [upd]
        · simp [upd, hi]
      rw [this]
    refine Res.ok (modT_run _ _ _) ?_
    rw [e]; exact h1

theorem loadLeafLoop_run {items : Nat} {leaf : Bool} {left : Option Id} : ∀ (l2 : List (K × V)) {w : World K V} {done : List (K × V)},
    I P w0 T w ρ (cellB { c with body := .raw false items leaf left (leafKv done) } + R) →
    Spec.Sorted c.cm.cmp (done ++ l2) → AllValid c.cm.Valid (done ++ l2) →
    Res (loadLeafLoop c.cm.cmp c.id l2 w)
      (fun _ w' => I P w0 T w' ρ (cellB { c with body := .raw false items leaf left (leafKv (done ++ l2)) } + R))
      (fun e w' => Faulty w0 e ∧ ∃ l, I P w0 T w' ρ (cellB { c with body := .raw false items leaf left l } + R))
  | [], w, done, h, _, _ => by simpa [loadLeafLoop, Res] using h
  | (k, v) :: l2, w, done, h, hs, hv => by
      unfold loadLeafLoop
      refine h.unpack.bind (fun e w h => ⟨h.1, _, h.2⟩) fun _ w1 h1 => ?_
      refine h1.unpack.bind (fun e w h => ⟨h.1, _, h.2⟩) fun _ w2 h2 => ?_
      have hs' := sorted_mid.1 hs
      obtain ⟨w3, e3, h3⟩ := h2.kvPut (a := leafKv done) (b := []) (by rw [List.append_nil]) (k := k) (valid_mid hv) (.item v)
        (fun p hp => by
          obtain ⟨p', hp', rfl⟩ := List.mem_map.1 hp
          exact hs'.2.2.1 p' hp')
        (fun p hp => by simp at hp)
      rw [bind_ok e3]
      simp only [check_true_bind]
      have := loadLeafLoop_run l2 (w := w3) (done := done ++ [(k, v)]) (by simpa [leafKv] using h3)
        (by simpa using hs) (by simpa using hv)
      simpa using this

/-- The struct made for a child. -/
def childCell (P : Par K) (i : Id) (x : Id) (d : Ref × Nat) : Cell K V :=
  mkCell P (Pos.child i) x (some d.1) (.unl d.2)

/-- What the children just made take up. -/
def newKids (P : Par K) (i : Id) (us : List (Id × (Ref × Nat))) : B K V :=
  (us.map fun u => cellB (childCell P i u.1 u.2) + offB u.1).sum + slotB ((us.map Prod.fst : List Id) : Multiset Id)

theorem newKids_nil (P : Par K) (i : Id) : (newKids P i [] : B K V) = 0 := rfl
theorem newKids_cons (P : Par K) (i : Id) (u us) : (newKids P i (u :: us) : B K V) =
    (cellB (childCell P i u.1 u.2) + offB u.1 + slotB {u.1}) + newKids P i us := by
  simp only [newKids, List.map_cons, List.sum_cons, ← Multiset.singleton_add, ← Multiset.cons_coe, slotB_add]
  abel

theorem I.childAlloc (h : I P w0 T w ρ R) (i : Id) (d : Ref × Nat) :
    ∃ w' x, BT.alloc (childStruct P.τ i d) w = (.ok x, w') ∧ I P w0 T w' ρ (cellB (childCell P i x d) + offB x + slotB {x} + R) := by
  obtain ⟨w', h1, h2⟩ := h.alloc (n := childStruct P.τ i d) (childCell P i (w.addr P.τ) d) rfl rfl
    (fun ps => ⟨rfl, rfl, rfl, rfl, rfl, rfl, rfl⟩)
  exact ⟨w', _, h1, h2⟩

theorem loadInnerLoop_run {items : Nat} {leaf : Bool} {left : Option Id} (hcm : c.cm = P.toCmp) (ht : c.tree = P.τ) :
    ∀ (l2 : List (K × (Ref × Nat))) {w : World K V} {R : B K V} {done : List (K × Id)},
    I P w0 T w ρ (cellB { c with body := .raw false items leaf left (innerKv done) } + R) →
    (done.map Prod.fst ++ l2.map Prod.fst).Pairwise (fun a b => ltb P.cmp a b = true) → (∀ p ∈ l2, P.Valid p.1) →
    Res (loadInnerLoop P.cmp P.τ c.id l2 w)
      (fun _ w' => ∃ xs : List Id, xs.length = l2.length ∧
        I P w0 T w' ρ (cellB { c with body := .raw false items leaf left (innerKv (done ++ (l2.map Prod.fst).zip xs)) } +
          newKids P c.id (xs.zip (l2.map Prod.snd)) + R))
      (fun e w' => Faulty w0 e ∧ ∃ l, I P w0 T w' ρ (cellB { c with body := .raw false items leaf left l } + R))
  | [], w, R, done, h, _, _ => by
      refine ⟨[], rfl, ?_⟩
      simpa [newKids_nil] using h
  | (k, d) :: l2, w, R, done, h, hs, hv => by
      unfold loadInnerLoop
      refine h.unpack.bind (fun e w h => ⟨h.1, _, h.2⟩) fun _ w1 h1 => ?_
      refine h1.unpack.bind (fun e w h => ⟨h.1, _, h.2⟩) fun _ w2 h2 => ?_
      simp only [getN_bind]
      have et : (w2.node c.id).tree = P.τ := by rw [← ht]; exact h2.cell.tree
      rw [et]
      obtain ⟨w3, x, e3, h3⟩ := h2.childAlloc c.id d
      rw [bind_ok e3]
      have h3' := h3.eq (by abel : _ = cellB { c with body := .raw false items leaf left (innerKv done) } +
        (cellB (childCell P c.id x d) + offB x + slotB {x} + R))
      obtain ⟨w4, e4, h4⟩ := h3'.kvPutIgnore (a := innerKv done) (b := []) (by rw [List.append_nil]) (k := k)
        (by show c.cm.Valid k; rw [hcm]; exact hv (k, d) (by simp)) (.node x)
        (fun p hp => by
          obtain ⟨p', hp', rfl⟩ := List.mem_map.1 hp
          show ltb c.cm.cmp _ _ = _
          rw [hcm]
          exact (List.pairwise_append.1 hs).2.2 p'.1 (List.mem_map_of_mem hp') k (by simp))
        (fun p hp => by simp at hp)
      have e4' : kvPutIgnore P.cmp c.id k (.node x) w3 = (.ok (), w4) := by rw [← e4, hcm]
      rw [bind_ok e4']
      have e5 := I.init (x := x) (h4.eq (by abel : _ = offB x +
        (cellB { c with body := .raw false items leaf left (innerKv done ++ [(k, .node x)]) } + cellB (childCell P c.id x d) + slotB {x} + R)))
      rw [bind_ok e5]
      have := loadInnerLoop_run hcm ht l2 (w := w4) (done := done ++ [(k, x)]) (R := cellB (childCell P c.id x d) + offB x + slotB {x} + R)
        (h4.eq (by rw [innerKv_append]; rfl)) (by simpa using hs) (fun p hp => hv p (by simp [hp]))
      refine this.mono ?_ ?_
      · rintro _ w' ⟨xs, hx, hi⟩
        refine ⟨x :: xs, by simp [hx], hi.eq ?_⟩
        simp only [List.map_cons, List.zip_cons_cons, newKids_cons, List.append_assoc, List.cons_append, List.nil_append]
        abel
      · rintro e w' ⟨hf, l, hi⟩
        refine ⟨hf, l, ?_⟩
        exact (hi.eq (by abel : _ = cellB (childCell P c.id x d) + (offB x + (slotB {x} + (cellB { c with body := .raw false items leaf left l } + R))))).forget.forgetOff.forgetSlot

theorem I.arrangeLoad {items : Nat} {c0 : Id} {cs : List (K × Id)}
    (h : I P w0 T w ρ (cellB c + slotB ((c0 :: cs.map Prod.snd : List Id) : Multiset Id) + R))
    (hb : c.body = .raw false items false (some c0) (innerKv cs))
    {q : List (Id × Nat)} (hq : q.map Prod.fst = c0 :: cs.map Prod.snd) (hi : ∀ p ∈ q, (w.node p.1).items = p.2) :
    ∃ w', arrangeIgnore c.id w = (.ok (), w') ∧ I P w0 T (w'.setN c.id { w'.node c.id with loaded := true }) ρ
      (cellB { c with body := .inner (total q) c0 cs (some q) } + R) := by
  have hst : St w ({c} + R.1) (((c0 :: cs.map Prod.snd : List Id) : Multiset Id) + R.2.2.2) := by
    have := h.st
    simpa using this
  have hc := (h.eq (add_assoc _ _ _)).cell
  have hbody := hc.body
  rw [hb] at hbody
  obtain ⟨hb1, hb2, hb3, hb4, hb5⟩ := hbody
  have hn : (c0 :: cs.map Prod.snd).Nodup := by
    have := hst.kids
    exact Multiset.coe_nodup.1 (Multiset.nodup_add.1 (Multiset.nodup_add.1 this).2.1).1
  obtain ⟨g, r, h1, h2, h3⟩ := arrange_core hb5 hb4 hn hq hi
  refine ⟨_, by simp only [arrangeIgnore, bind_ok (attempt_ok h1)]; rfl, ?_⟩
  refine h.same (R' := cellB { c with body := .inner (total q) c0 cs (some q) } + R) ?_ ?_ rfl (by simp) (by simp)
  · have := hst.swap (w' := ((w.setPs g).setN c.id { w.node c.id with psRoot := some r, items := total q }).setN c.id
        { ((w.setPs g).setN c.id { w.node c.id with psRoot := some r, items := total q }).node c.id with loaded := true })
      (A' := {{ c with body := .inner (total q) c0 cs (some q) }}) (X' := 0) (by simp) (by simp [hb, Body.kids])
      (fun i hi => by
        have : i ≠ c.id := by simpa using hi
        simp [upd_ne _ _ this])
      (fun i hi => by
        refine h3 i ?_
        simpa [hb, Body.kids] using hi)
      rfl (by
        simp only [Multiset.mem_singleton, forall_eq]
        refine ⟨?_, ?_, ?_, ?_, ?_, ?_⟩ <;> simp only [setN_node, upd_same]
        · exact hc.tree
        · exact hc.parent
        · exact hc.root
        · exact hc.ref
        · exact hc.dirty
        · refine ⟨rfl, hb2, rfl, hb4, hb5, fun q' hq' => ?_⟩
          cases hq'
          exact ⟨hq, h2⟩)
    simpa using this
  · exact ((Calm.setPs _ w g).trans (Calm.setN _ _ _ _)).trans (Calm.setN _ _ _ _)

/-- Children, not loaded. -/
def unls {h : Nat} (cs : List (K × Dt K V h)) (xs : List Id) : List (K × Gt K V h) :=
  List.zipWith (fun p x => (p.1, Gt.unl x p.2)) cs xs

theorem unls_spec {h : Nat} (P : Par K) (i : Id) : ∀ (cs : List (K × Dt K V h)) (xs : List Id), xs.length = cs.length →
    (unls cs xs).map (fun p => (p.1, p.2.erase)) = cs.map (fun p => (p.1, p.2.erase)) ∧
    (∀ p ∈ unls cs xs, p.2.Clean ∧ p.2.st.isSome ∧ p.2.odds = 0) ∧
    (unls cs xs).map (fun p => (p.1, p.2.id)) = (cs.map Prod.fst).zip xs ∧
    (unls cs xs).map (fun p => (p.1, p.2.kid.disk)) = cs.map (fun p => (p.1, p.2.kid.disk)) ∧
    (unls cs xs).map (fun p => p.2.cnt) = cs.map (fun p => p.2.cnt) ∧
    newKids P i (xs.zip (cs.map fun p => p.2.kid.disk)) + pagesB (cs.map fun p => p.2.pages P false).sum =
      kidsB P i ((unls cs xs).map Prod.snd) + slotB ((xs : List Id) : Multiset Id)
  | [], [], _ => by simp [unls, newKids_nil, pagesB, slotB]
  | (k, d) :: cs, x :: xs, e => by
      obtain ⟨h1, h2, h3, h4, h5, h6⟩ := unls_spec P i cs xs (by simpa using e)
      unfold unls at *
      refine ⟨by simp [h1], ?_, by simp [h3], by rw [List.zipWith_cons_cons, List.map_cons, List.map_cons, h4]; simp [Gt.kid, Kid.disk, Dt.kid], by simp [h5], ?_⟩
      · intro p hp
        simp only [List.zipWith_cons_cons, List.mem_cons] at hp
        rcases hp with rfl | hp
        · simp
        · exact h2 p hp
      · simp only [List.map_cons, List.zip_cons_cons, newKids_cons, List.sum_cons, pagesB_add, List.zipWith_cons_cons,
          kidsB_cons, bun_unl, ← Multiset.cons_coe, ← Multiset.singleton_add x, slotB_add]
        have : newKids P i (xs.zip (cs.map fun p => p.2.kid.disk)) + pagesB (cs.map fun p => p.2.pages P false).sum +
          (cellB (childCell P i x d.kid.disk) + offB x + slotB {x} + pagesB (d.pages P false)) =
            kidsB P i ((List.zipWith (fun p x => (p.1, Gt.unl x p.2)) cs xs).map Prod.snd) + slotB ((xs : List Id) : Multiset Id) +
          (cellB (childCell P i x d.kid.disk) + offB x + slotB {x} + pagesB (d.pages P false)) := by rw [h6]
        refine Eq.trans ?_ (this.trans ?_)
        · abel
        · simp only [childCell, Kid.disk, Dt.kid, Pos.child, refOf, Option.getD_some]
          abel

/-- The count field of a node. -/
theorem I.items {h : Nat} {q : Pos} {t : Gt K V h} (hI : I P w0 T w ρ (bun P q t + R)) : (w.node t.id).items = t.cnt := by
  cases h with
  | zero =>
    rcases t.cases0 with ⟨i, d, rfl⟩ | ⟨i, st, l, rfl⟩ | ⟨i, o, l, rfl⟩
    · rw [bun_unl, add_assoc, add_assoc] at hI
      rw [id_unl, cnt_unl]
      exact hI.cell.body.2
    · rw [bun_leaf, leafB, add_assoc, add_assoc] at hI
      exact hI.cell.body.2.2.1
    · rw [bun_odLeaf, oddB, add_assoc, add_assoc] at hI
      exact hI.cell.body.2.2.1
  | succ h =>
    rcases t.casesS with ⟨i, d, rfl⟩ | ⟨i, st, r, rfl⟩ | ⟨i, o, r, rfl⟩
    · rw [bun_unl, add_assoc, add_assoc] at hI
      rw [id_unl, cnt_unl]
      exact hI.cell.body.2
    · rw [bun_inner, innerB, add_assoc, add_assoc, add_assoc] at hI
      have := hI.cell.body.2.2.1
      refine this.trans ?_
      rw [cnt_inner]; simp [Row.total, Function.comp_def, Gt.kid]
    · rw [bun_odInner, oddB, add_assoc, add_assoc, add_assoc] at hI
      have := hI.cell.body.2.2.1
      refine this.trans ?_
      rw [cnt_odInner]; simp [Row.total, Function.comp_def, Gt.kid]

theorem I.itemsKids {h : Nat} {i : Id} {l : List (Gt K V h)} (hI : I P w0 T w ρ (kidsB P i l + R)) :
    ∀ t ∈ l, (w.node t.id).items = t.cnt := by
  intro t ht
  obtain ⟨a, b, rfl⟩ := List.append_of_mem ht
  rw [kidsB_append, kidsB_cons] at hI
  exact (hI.eq (by abel : _ = bun P (Pos.child i) t + (kidsB P i a + kidsB P i b + R))).items

theorem modN_loaded (i : Id) (w : World K V) : modN i (fun n => { n with loaded := true }) w =
    (.ok (), w.setN i { w.node i with loaded := true }) := rfl

theorem mkCell_with (P : Par K) (q : Pos) (i : Id) (st : Option Ref) (b b' : Body K V) :
    { mkCell P q i st b with body := b' } = mkCell P q i st b' := rfl

theorem loadLeaf_run {q : Pos} {i : Id} {ref : Ref} {left : Option Id} {l : List (K × V)}
    (hI : I P w0 T w ρ (cellB (mkCell P q i (some ref) (.raw false l.length true left [])) + R))
    (hs : Spec.Sorted P.cmp l) (hv : AllValid P.Valid l) :
    Res (loadBody P.cmp P.τ i (.leaf l) w)
      (fun _ w' => I P w0 T (w'.setN i { w'.node i with loaded := true }) ρ (cellB (mkCell P q i (some ref) (.leaf l.length l)) + R))
      (fun e w' => Faulty w0 e ∧ ∃ leaf left l', I P w0 T w' ρ (cellB (mkCell P q i (some ref) (.raw false l.length leaf left l')) + R)) := by
  unfold loadBody
  refine hI.unpack.bind (fun e w h => ⟨h.1, _, _, _, h.2⟩) fun _ w1 h1 => ?_
  refine (loadLeafLoop_run (c := mkCell P q i (some ref) (.unl 0)) (done := []) l h1 (by rw [List.nil_append]; exact hs) (by rw [List.nil_append]; exact hv)).bind
    (fun e w h => ⟨h.1, _, _, h.2⟩) fun _ w2 h2 => ?_
  refine Res.ok (modN_run _ _ _) ?_
  have hc := h2.cell
  obtain ⟨b1, b2, b3, b4, b5⟩ := hc.body
  have h3 := h2.setN (c' := mkCell P q i (some ref) (.leaf l.length l))
    (n := { w2.node i with psRoot := none, loaded := true }) rfl rfl ⟨hc.tree, hc.parent, hc.root, hc.ref, hc.dirty, ⟨rfl, b2, b3, b5⟩⟩
  have e : (w2.setN i { w2.node i with psRoot := none }).setN i
      { (w2.setN i { w2.node i with psRoot := none }).node i with loaded := true } =
      w2.setN i { w2.node i with psRoot := none, loaded := true } := by
    simp [setN_setN, upd_same]
  rw [e]
  exact h3

theorem loadInner_run {h : Nat} {q : Pos} {i : Id} {ref : Ref} {left : Option Id} {r : Row K (Dt K V h)}
    {n : Nat} (hn : n = (r.kids.map Dt.cnt).sum)
    (hI : I P w0 T w ρ (cellB (mkCell P q i (some ref) (.raw false n false left [])) +
      pagesB (r.kids.map (Dt.pages P false)).sum + R))
    (hs : r.cs.Pairwise (fun a b => ltb P.cmp a.1 b.1 = true)) (hv : ∀ p ∈ r.cs, P.Valid p.1) :
    Res (loadBody P.cmp P.τ i (Row.disk (r.map Dt.kid)) w)
      (fun _ w' => ∃ g : Row K (Gt K V h), g.map Gt.erase = r.map Dt.erase ∧ (∀ c ∈ g.kids, c.Clean ∧ c.st.isSome ∧ c.odds = 0) ∧
        (g.map Gt.kid).total = n ∧ ((g.map Gt.kid).disk : DiskBody K V) = (r.map Dt.kid).disk ∧
        (kidsB P i g.kids).2.2.1 = (r.kids.map (Dt.pages P false)).sum ∧
        I P w0 T (w'.setN i { w'.node i with loaded := true }) ρ
          (cellB (mkCell P q i (some ref) (g.map Gt.kid).body) + kidsB P i g.kids + R))
      (fun e w' => Faulty w0 e ∧ ∃ leaf left l', I P w0 T w' ρ (cellB (mkCell P q i (some ref) (.raw false n leaf left l')) +
        pagesB (r.kids.map (Dt.pages P false)).sum + R)) := by
  have hd : ((r.map Dt.kid).disk : DiskBody K V) = .inner r.c0.kid.disk (r.cs.map fun p => (p.1, p.2.kid.disk)) := by
    simp [Row.disk]
  rw [hd]
  unfold loadBody
  refine hI.unpack.bind (fun e w h => ⟨h.1, _, _, _, h.2⟩) fun _ w1 h1 => ?_
  refine h1.unpack.bind (fun e w h => ⟨h.1, _, _, _, h.2⟩) fun _ w2 h2 => ?_
  simp only [getN_bind]
  have et : (w2.node i).tree = P.τ := (h2.eq (add_assoc _ _ _)).cell.tree
  rw [et]
  obtain ⟨w3, x, e3, h3⟩ := h2.childAlloc i (r.c0.kid.disk)
  rw [bind_ok e3]
  have h3' := h3.eq (by abel : _ = cellB (mkCell P q i (some ref) (.raw false n false left [])) +
    (cellB (childCell P i x r.c0.kid.disk) + offB x + slotB {x} + pagesB (r.kids.map (Dt.pages P false)).sum + R))
  obtain ⟨w4, e4, h4⟩ := h3'.modN (f := fun n => { n with left := some x })
    (mkCell P q i (some ref) (.raw false n false (some x) [])) rfl rfl
    (fun m hm => ⟨hm.tree, hm.parent, hm.root, hm.ref, hm.dirty, ⟨hm.body.1, hm.body.2.1, hm.body.2.2.1, rfl, hm.body.2.2.2.2⟩⟩)
  rw [bind_ok (show modN i _ _ = _ from e4)]
  have e5 := I.init (x := x) (h4.eq (by abel : _ = offB x + (cellB (mkCell P q i (some ref) (.raw false n false (some x) [])) +
    (cellB (childCell P i x r.c0.kid.disk) + slotB {x} + pagesB (r.kids.map (Dt.pages P false)).sum + R))))
  rw [bind_ok e5]
  refine (loadInnerLoop_run (c := mkCell P q i (some ref) (.unl 0)) (done := []) rfl rfl (r.cs.map fun p => (p.1, p.2.kid.disk)) h4
    (by simpa [List.pairwise_map] using hs) (by
      intro p hp
      obtain ⟨p', hp', rfl⟩ := List.mem_map.1 hp
      exact hv p' hp')).bind ?_ ?_
  · rintro e w' ⟨hf, l, hi⟩
    refine ⟨hf, false, some x, l, ?_⟩
    exact (hi.eq (by rw [mkCell_with]; abel : _ = cellB (childCell P i x r.c0.kid.disk) + (offB x + (slotB {x} +
      (cellB (mkCell P q i (some ref) (.raw false n false (some x) l)) + pagesB (r.kids.map (Dt.pages P false)).sum + R))))).forget.forgetOff.forgetSlot
  · rintro _ w5 ⟨xs, hx, h5⟩
    rw [List.length_map] at hx
    obtain ⟨u1, u2, u3, u4, u5, u6⟩ := unls_spec P i r.cs xs hx
    have hids : (unls r.cs xs).map (fun p => p.2.id) = xs := by
      have := congrArg (List.map Prod.snd) u3
      rw [List.map_map, List.map_snd_zip (by simp [hx])] at this
      exact this
    have hmm : (r.cs.map fun p => (p.1, p.2.kid.disk)).map Prod.fst = r.cs.map Prod.fst := by simp
    have hmm2 : (r.cs.map fun p => (p.1, p.2.kid.disk)).map Prod.snd = r.cs.map fun p => p.2.kid.disk := by simp
    rw [List.nil_append, mkCell_with, hmm, hmm2, ← u3] at h5
    have hpg : (r.kids.map (Dt.pages P false)).sum = r.c0.pages P false + (r.cs.map fun p => p.2.pages P false).sum := by
      simp [Row.kids, Function.comp_def]
    let g : Row K (Gt K V h) := ⟨.unl x r.c0, unls r.cs xs⟩
    have h6 : I P w0 T w5 ρ (cellB (mkCell P q i (some ref) (.raw false n false (some x)
        (innerKv ((unls r.cs xs).map fun p => (p.1, p.2.id))))) +
        slotB ((x :: ((unls r.cs xs).map fun p => (p.1, p.2.id)).map Prod.snd : List Id) : Multiset Id) + (kidsB P i g.kids + R)) := by
      refine h5.eq ?_
      have e1 : kidsB P i g.kids = bun P (Pos.child i) (.unl x r.c0) + kidsB P i ((unls r.cs xs).map Prod.snd) := by
        simp only [g, Row.kids, kidsB_cons]
      have e2 : (slotB ((x :: ((unls r.cs xs).map fun p => (p.1, p.2.id)).map Prod.snd : List Id) : Multiset Id) : B K V) =
          slotB {x} + slotB ((xs : List Id) : Multiset Id) := by
        rw [List.map_map]
        show slotB ((x :: (unls r.cs xs).map (fun p => p.2.id) : List Id) : Multiset Id) = _
        rw [hids, ← Multiset.cons_coe, ← Multiset.singleton_add, slotB_add]
      rw [e1, e2, bun_unl, hpg, pagesB_add]
      have u7 := congrArg (fun z => z + (cellB (mkCell P q i (some ref) (.raw false n false (some x)
        (innerKv ((unls r.cs xs).map fun p => (p.1, p.2.id))))) + cellB (childCell P i x r.c0.kid.disk) + offB x + slotB {x} +
        pagesB (r.c0.pages P false) + R)) u6
      refine Eq.trans ?_ (u7.trans ?_)
      · show _ + newKids P i _ + _ = _
        abel
      · simp only [childCell, Kid.disk, Dt.kid, Pos.child, refOf, Option.getD_some]
        abel
    have hit := (h6.eq (by abel : _ = kidsB P i g.kids + (cellB (mkCell P q i (some ref) (.raw false n false (some x)
        (innerKv ((unls r.cs xs).map fun p => (p.1, p.2.id))))) +
        slotB ((x :: ((unls r.cs xs).map fun p => (p.1, p.2.id)).map Prod.snd : List Id) : Multiset Id) + R))).itemsKids
    obtain ⟨w6, e6, h7⟩ := h6.arrangeLoad rfl (q := g.kids.map fun t => (t.id, t.cnt))
      (by simp [g, Row.kids, Function.comp_def])
      (by
        intro p hp
        obtain ⟨t, ht, rfl⟩ := List.mem_map.1 hp
        exact hit t ht)
    refine Res.ok e6 ⟨g, ?_, ?_, ?_, ?_, ?_, ?_⟩
    · simp only [g, Row.map, u1, erase_unl]
    · intro c hc
      simp only [g, Row.kids, List.mem_cons, List.mem_map] at hc
      rcases hc with rfl | ⟨p, hp, rfl⟩
      · simp
      · exact u2 p hp
    · have : (g.map Gt.kid).total = (g.kids.map Gt.cnt).sum := by simp [Row.total, Function.comp_def, Gt.kid]
      rw [this, hn]
      simp only [g, Row.kids, List.map_cons, List.map_map, Function.comp_def, u5, cnt_unl]
    · rw [← u4]
      have e0 : (Gt.unl x r.c0).kid.disk = r.c0.kid.disk := by simp [Gt.kid, Kid.disk, Dt.kid]
      simp only [Row.disk, g, Row.map, List.map_map, Function.comp_def, e0]
    · rw [hpg]
      have := congrArg (fun z : B K V => z.2.2.1) u6
      have en : ∀ us : List (Id × Ref × Nat), (newKids P i us : B K V).2.2.1 = 0 := by
        intro us
        induction us with
        | nil => rfl
        | cons u us ih => rw [newKids_cons]; simp [ih]
      simp only [Prod.snd_add, Prod.fst_add, en, zero_add, pagesB_3, slotB_3, add_zero] at this
      rw [this]
      simp only [g, Row.kids, kidsB_cons, bun_unl, Prod.snd_add, Prod.fst_add, cellB_3, offB_3, pagesB_3, zero_add]
      rfl
    · have hb : ((g.map Gt.kid).body : Body K V) = .inner (total (g.kids.map fun t => (t.id, t.cnt))) x
          ((unls r.cs xs).map fun p => (p.1, p.2.id)) (some (g.kids.map fun t => (t.id, t.cnt))) := by
        simp [Row.body, Row.total, total, Function.comp_def, Gt.kid, g]
      rw [hb]
      exact h7.eq (by rw [mkCell_with, add_assoc])

/-- What a node's page holds. -/
def Dt.body : {h : Nat} → Dt K V h → DiskBody K V
  | 0, d => .leaf (@_root_.id (Ref × List (K × V)) d).2
  | h + 1, d => Row.disk ((@_root_.id (Ref × Row K (Dt K V h)) d).2.map Dt.kid)

/-- The pages below a node's own. -/
def Dt.sub (P : Par K) : {h : Nat} → Dt K V h → Multiset (Ref × DiskNode K V)
  | 0, _ => 0
  | h + 1, d => ((@_root_.id (Ref × Row K (Dt K V h)) d).2.kids.map (Dt.pages P false)).sum

theorem Dt.pages_eq {h : Nat} (P : Par K) (root : Bool) (d : Dt K V h) :
    d.pages P root = (d.ref, mkDisk P root d.cnt d.body) ::ₘ d.sub P := by
  cases h with
  | zero => rfl
  | succ h =>
    obtain ⟨ref, r, rfl⟩ := d.casesS
    rw [pages_inner, cnt_dinner]
    rfl

/-- `loadNode` -/
theorem load_run {h : Nat} {q : Pos} {i : Id} {d : Dt K V h} (hI : I P w0 T w ρ (bun P q (.unl i d) + R))
    (ho : Ord P.toCmp d.erase.seq) :
    Res (loadNode P.cmp P.τ i w)
      (fun _ w' => ∃ g : Gt K V h, g.ld = true ∧ g.id = i ∧ g.st = some d.ref ∧ g.erase = d.erase ∧ (g.Clean ∧ g.odds = 0) ∧
        (∀ q', (bun P q' g).2.2.1 = d.pages P q'.root) ∧ I P w0 T w' ρ (bun P q g + R))
      (fun e w' => Faulty w0 e ∧ I P w0 T w' ρ (bun P q (.unl i d) + R)) := by
  have hpg := d.pages_eq P q.root
  generalize hdb : d.body = db at hpg
  rw [bun_unl] at hI
  have hI' := hI.eq (by abel : _ = cellB (mkCell P q i (some d.ref) (.unl d.cnt)) + (offB i + pagesB (d.pages P q.root) + R))
  have herr : ∀ w' leaf left l, I P w0 T w' ρ (cellB (mkCell P q i (some d.ref)
      (.raw false d.cnt leaf left l)) + (offB i + pagesB (d.pages P q.root) + R)) →
      I P w0 T w' ρ (bun P q (.unl i d) + R) := by
    intro w' leaf left l h
    rw [bun_unl]
    have := h.closeUnl rfl
    refine this.eq ?_
    show cellB (mkCell P q i (some d.ref) (.unl d.cnt)) + _ = _
    abel
  have hpage : (d.ref, mkDisk P q.root d.cnt db) ∈ (cellB (mkCell P q i (some d.ref) (.unl d.cnt)) +
      (offB i + pagesB (d.pages P q.root) + R)).2.2.1 := by simp [hpg]
  unfold loadNode
  simp only [getN_bind]
  have eref : (w.node i).ref = d.ref := hI'.cell.ref
  rw [eref]
  refine (hI'.getNode hpage).bind (fun e w h => ⟨h.1, by rw [bun_unl]; exact h.2.eq (by abel)⟩) ?_
  rintro dn w1 ⟨rfl, h1⟩
  dsimp only
  -- fields
  have hc := h1.cell
  have h2 := h1.setN (c' := mkCell P q i (some d.ref) (.raw false d.cnt (w1.node i).leaf (w1.node i).left []))
    (n := { w1.node i with kv := some .nil }) rfl rfl
    ⟨hc.tree, hc.parent, hc.root, hc.ref, hc.dirty, ⟨hc.body.1, rfl, hc.body.2, rfl, KvIs.nil⟩⟩
  rw [bind_ok (modN_run _ _ _)]
  refine h2.unpack.bind (fun e w h => ⟨h.1, herr _ _ _ _ h.2⟩) fun _ w3 h3 => ?_
  generalize (w1.node i).left = left at h3
  obtain ⟨w4, e4, h4⟩ := h3.modN (f := fun n => { n with items := d.cnt, root := q.root, leaf := db.isLeaf })
    (mkCell P q i (some d.ref) (.raw false d.cnt db.isLeaf left [])) rfl rfl
    (fun m hm => ⟨hm.tree, hm.parent, rfl, hm.ref, hm.dirty, ⟨hm.body.1, rfl, rfl, hm.body.2.2.2.1, hm.body.2.2.2.2⟩⟩)
  rw [show modN i (fun n => { n with items := (mkDisk P q.root d.cnt db).items, root := (mkDisk P q.root d.cnt db).root, leaf := (mkDisk P q.root d.cnt db).body.isLeaf }) = modN i (fun n => { n with items := d.cnt, root := q.root, leaf := db.isLeaf }) from rfl, bind_ok (show modN i _ _ = _ from e4)]
  refine (h4.loadMax q.root d.cnt db).bind (fun e w h => ⟨h.1, herr _ _ _ _ h.2⟩) fun _ w5 h5 => ?_
  show Res ((loadBody P.cmp P.τ i db >>= _) w5) _ _
  cases h with
  | zero =>
    obtain ⟨ref, l, rfl⟩ := d.cases0
    subst hdb
    rw [erase_dleaf] at ho
    obtain ⟨o1, o2⟩ := ho.leaf
    refine (loadLeaf_run (ref := ref) (l := l) h5 o1 o2).bind ?_ ?_
    · rintro e w ⟨hf, leaf, left, l', hi⟩
      exact ⟨hf, herr _ _ _ _ hi⟩
    · intro _ w6 h6
      rw [bind_ok (modN_loaded i w6)]
      obtain ⟨w7, e7, h7⟩ := (h6.eq (by rw [pages_leaf]; abel : _ = cellB (mkCell P q i (some ref) (.leaf l.length l)) + offB i +
        (pagesB {(ref, mkDisk P q.root l.length (.leaf l))} + R))).markClean
      refine Res.ok e7 ⟨.leaf i (some ref) l, rfl, rfl, rfl, rfl, ⟨by simp, by simp⟩, fun q' => ?_, h7.eq ?_⟩
      · rw [bun_leaf, leafB]; simp [pages_leaf]
      rw [bun_leaf, leafB, ← add_assoc]
      rfl
  | succ h =>
    obtain ⟨ref, r, rfl⟩ := d.casesS
    subst hdb
    rw [erase_dinner] at ho
    obtain ⟨o1, o2⟩ := ho.seps
    have h5' := h5.eq (by
      rw [hpg, pagesB_cons, cnt_dinner]
      show cellB (mkCell P q i (some ref) (.raw false (r.kids.map Dt.cnt).sum false left [])) + (offB i + (pageB (ref, mkDisk P q.root (r.kids.map Dt.cnt).sum (r.map Dt.kid).disk) + pagesB (r.kids.map (Dt.pages P false)).sum) + R) = _
      abel : _ = cellB (mkCell P q i (some ref) (.raw false (r.kids.map Dt.cnt).sum false left [])) +
      pagesB (r.kids.map (Dt.pages P false)).sum + (offB i + pageB (ref, mkDisk P q.root (r.kids.map Dt.cnt).sum (r.map Dt.kid).disk) + R))
    refine (loadInner_run (ref := ref) (r := r) rfl h5' (by rw [Row.map_cs] at o1; exact List.pairwise_map.1 o1)
      (fun p hp => o2 (p.1, p.2.erase) (List.mem_map.2 ⟨p, hp, rfl⟩))).bind ?_ ?_
    · rintro e w ⟨hf, leaf, left, l', hi⟩
      refine ⟨hf, herr _ leaf left l' (hi.eq ?_)⟩
      rw [hpg, pagesB_cons, cnt_dinner]
      show _ = cellB (mkCell P q i (some ref) (.raw false (r.kids.map Dt.cnt).sum leaf left l')) + (offB i + (pageB (ref, mkDisk P q.root (r.kids.map Dt.cnt).sum (r.map Dt.kid).disk) + pagesB (r.kids.map (Dt.pages P false)).sum) + R)
      abel
    · rintro _ w6 ⟨g, g1, g2, g3, g4, g5, h6⟩
      rw [bind_ok (modN_loaded i w6)]
      obtain ⟨w7, e7, h7⟩ := (h6.eq (by abel : _ = cellB (mkCell P q i (some ref) (g.map Gt.kid).body) + offB i +
        (kidsB P i g.kids + pageB (ref, mkDisk P q.root (r.kids.map Dt.cnt).sum (r.map Dt.kid).disk) + R))).markClean
      refine Res.ok e7 ⟨.inner i (some ref) g, rfl, rfl, rfl, ?_, ?_, fun q' => ?_, h7.eq ?_⟩
      · rw [erase_inner, erase_dinner, g1]
      · rw [Clean_inner]
        refine ⟨fun c hc => ⟨(g2 c hc).1, fun _ => (g2 c hc).2.1⟩, ?_⟩
        rw [odds_inner, List.map_eq_replicate_iff.2 (fun c hc => (g2 c hc).2.2)]
        simp
      · rw [bun_inner, innerB, g3, g4, pages_inner]
        change (_ + kidsB P i g.kids : B K V).2.2.1 = _
        rw [Prod.snd_add, Prod.snd_add, Prod.fst_add, g5]
        simp
      · rw [bun_inner, innerB, g3, g4]
        show cellB (mkCell P q i (some ref) (g.map Gt.kid).body) + lruB P.ca i false + _ =
          cellB (mkCell P q i (some ref) (g.map Gt.kid).body) + lruB P.ca i false + pageB _ + kidsB P i g.kids + R
        abel

end

end SM.BT

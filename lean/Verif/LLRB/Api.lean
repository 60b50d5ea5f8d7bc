import Verif.LLRB.Delete

/-! The remaining API functions of the LLRB model. -/

namespace SM.LLRB.Tree

open Spec

variable {K V : Type} {cmp : Compare K} {Valid : K → Prop}

/-! ### `delete` does not look at the colour of its root -/

/-- Flip the colour of the root. -/
def flip : Tree K V → Tree K V
  | nil => nil
  | node k v l r c n => node k v l r (!c) n

theorem flip_colorFlip (t : Tree K V) : colorFlip (flip t) = (colorFlip t).map flip := by
  cases t with
  | nil => rfl
  | node k v l r c n =>
    simp only [flip, colorFlip, Option.bind_eq_bind, Option.pure_def]
    cases l.toggle? <;> cases r.toggle? <;> simp [flip]

theorem flip_rotateLeft (t : Tree K V) : rotateLeft (flip t) = (rotateLeft t).map flip := by
  cases t with
  | nil => rfl
  | node k v l r c n => cases r <;> simp [flip, rotateLeft]

theorem flip_rotateRight (t : Tree K V) : rotateRight (flip t) = (rotateRight t).map flip := by
  cases t with
  | nil => rfl
  | node k v l r c n => cases l <;> simp [flip, rotateRight]

theorem flip_moveRedLeft (t : Tree K V) : moveRedLeft (flip t) = (moveRedLeft t).map flip := by
  simp only [moveRedLeft, flip_colorFlip, Option.bind_eq_bind, Option.pure_def]
  cases colorFlip t with
  | none => rfl
  | some t =>
    cases t with
    | nil => rfl
    | node k v l r c n =>
      simp only [Option.map_some, flip, Option.bind_some]
      cases r.left? with
      | none => rfl
      | some rl =>
        simp only [Option.bind_some]
        split
        · cases rotateRight r with
          | none => rfl
          | some r' =>
            have := flip_rotateLeft (node k v l r' c n)
            simp only [flip] at this
            simp only [Option.bind_some, this]
            cases rotateLeft (node k v l r' c n) with
            | none => rfl
            | some t' => simp [flip_colorFlip]
        · rfl

theorem flip_moveRedRight (t : Tree K V) : moveRedRight (flip t) = (moveRedRight t).map flip := by
  simp only [moveRedRight, flip_colorFlip, Option.bind_eq_bind, Option.pure_def]
  cases colorFlip t with
  | none => rfl
  | some t =>
    cases t with
    | nil => rfl
    | node k v l r c n =>
      simp only [Option.map_some, flip, Option.bind_some]
      cases l.left? with
      | none => rfl
      | some ll =>
        simp only [Option.bind_some]
        split
        · have := flip_rotateRight (node k v l r c n)
          simp only [flip] at this
          simp only [this]
          cases rotateRight (node k v l r c n) with
          | none => rfl
          | some t' => simp [flip_colorFlip]
        · rfl

@[simp] theorem flip_redRight (t : Tree K V) : redRight? (flip t) = redRight? t := by
  cases t <;> rfl
@[simp] theorem flip_redBoth (t : Tree K V) : redBoth? (flip t) = redBoth? t := by
  cases t <;> rfl
@[simp] theorem flip_redRedLeft (t : Tree K V) : redRedLeft? (flip t) = redRedLeft? t := by
  cases t with
  | nil => rfl
  | node k v l r c n => cases l <;> rfl
@[simp] theorem flip_left (t : Tree K V) : left? (flip t) = left? t := by cases t <;> rfl
@[simp] theorem flip_right (t : Tree K V) : right? (flip t) = right? t := by cases t <;> rfl
@[simp] theorem flip_cmpRoot (key : K) (t : Tree K V) :
    cmpRoot? cmp key (flip t) = cmpRoot? cmp key t := by cases t <;> rfl
@[simp] theorem flip_toList (t : Tree K V) : (flip t).toList = t.toList := by cases t <;> rfl
@[simp] theorem flip_size (t : Tree K V) : (flip t).size = t.size := by cases t <;> rfl
@[simp] theorem flip_flip (t : Tree K V) : flip (flip t) = t := by cases t <;> simp [flip]
theorem flip_lenOK {f : K → Int} {t : Tree K V} (h : LenOK f t) : LenOK f (flip t) := by
  cases t with
  | nil => trivial
  | node => exact h
@[simp] theorem flip_blacken (t : Tree K V) : (flip t).blacken = t.blacken := by cases t <;> rfl

theorem flip_fixUp (t : Tree K V) : fixUp (flip t) = (fixUp t).map flip := by
  have h1 : ∀ t : Tree K V, fixUp1 (flip t) = (fixUp1 t).map flip := by
    intro t
    simp only [fixUp1, flip_redRight, Option.bind_eq_bind]
    cases redRight? t with
    | none => rfl
    | some b => cases b <;> simp [flip_rotateLeft]
  have h2 : ∀ t : Tree K V, fixUp2 (flip t) = (fixUp2 t).map flip := by
    intro t
    simp only [fixUp2, flip_redRedLeft, Option.bind_eq_bind]
    cases redRedLeft? t with
    | none => rfl
    | some b => cases b <;> simp [flip_rotateRight]
  have h3 : ∀ t : Tree K V, fixUp3 (flip t) = (fixUp3 t).map flip := by
    intro t
    simp only [fixUp3, flip_redBoth, Option.bind_eq_bind]
    cases redBoth? t with
    | none => rfl
    | some b => cases b <;> simp [flip_colorFlip]
  simp only [fixUp, Option.bind_eq_bind, h1]
  cases fixUp1 t with
  | none => rfl
  | some t =>
    simp only [Option.map_some, Option.bind_some, h2]
    cases fixUp2 t with
    | none => rfl
    | some t => simp [h3]

theorem flip_fixUp_node {k : K} {v : V} {l r : Tree K V} {c n} :
    fixUp (node k v l r (!c) n) = (fixUp (node k v l r c n)).map flip :=
  flip_fixUp (node k v l r c n)

theorem flip_prepLeft (t : Tree K V) : prepLeft (flip t) = (prepLeft t).map flip := by
  simp only [prepLeft, flip_left, Option.bind_eq_bind]
  cases t.left? with
  | none => rfl
  | some l =>
    simp only [Option.bind_some]
    cases blackBlack? l with
    | none => rfl
    | some b => cases b <;> simp [flip_moveRedLeft]

theorem flip_deleteStep1 (key : K) (res : Int) (t : Tree K V) :
    deleteStep1 cmp key res (flip t) = (deleteStep1 cmp key res t).map fun p => (flip p.1, p.2) := by
  simp only [deleteStep1, flip_left, Option.bind_eq_bind, Option.pure_def]
  cases t.left? with
  | none => rfl
  | some l =>
    simp only [Option.bind_some]
    split
    · simp only [flip_rotateRight]
      cases rotateRight t with
      | none => rfl
      | some t1 => simp; cases cmpRoot? cmp key t1 <;> rfl
    · rfl

theorem flip_deleteStep2 (key : K) (res : Int) (t : Tree K V) :
    deleteStep2 cmp key res (flip t) = (deleteStep2 cmp key res t).map fun p => (flip p.1, p.2) := by
  simp only [deleteStep2, flip_right, Option.bind_eq_bind, Option.pure_def]
  cases t.right? with
  | none => rfl
  | some r =>
    simp only [Option.bind_some]
    cases blackBlack? r with
    | none => rfl
    | some b =>
      cases b with
      | false => rfl
      | true =>
        simp only [flip_moveRedRight, Option.bind_some]
        cases moveRedRight t with
        | none => rfl
        | some t1 => simp; cases cmpRoot? cmp key t1 <;> rfl

theorem flip_delete (key : K) (fuel : Nat) (t : Tree K V) :
    delete cmp key fuel (flip t) = (delete cmp key fuel t).map fun p => (flip p.1, p.2) := by
  cases fuel with
  | zero => rfl
  | succ fuel =>
    simp only [delete, flip_cmpRoot, Option.bind_eq_bind, Option.pure_def]
    cases cmpRoot? cmp key t with
    | none => rfl
    | some x =>
      cases x with
      | error e => rfl
      | ok res =>
        simp only [Option.bind_some]
        split
        · simp only [flip_prepLeft]
          cases prepLeft t with
          | none => rfl
          | some t1 =>
            cases t1 with
            | nil => rfl
            | node k v l r c n =>
              simp only [Option.map_some, Option.bind_some, flip]
              cases delete cmp key fuel l with
              | none => rfl
              | some p =>
                obtain ⟨l', e⟩ := p
                cases e with
                | some e => rfl
                | none =>
                  simp only [Option.bind_some, flip_fixUp_node]
                  cases fixUp (node k v l' r c n) <;> rfl
        · simp only [flip_deleteStep1]
          cases deleteStep1 cmp key res t with
          | none => rfl
          | some p =>
            obtain ⟨t1, x⟩ := p
            cases x with
            | error e => rfl
            | ok res1 =>
              simp only [Option.map_some, Option.bind_some, flip_right]
              cases t1.right? with
              | none => rfl
              | some r1 =>
                simp only [Option.bind_some]
                split
                · rfl
                · simp only [flip_deleteStep2]
                  cases deleteStep2 cmp key res1 t1 with
                  | none => rfl
                  | some p =>
                    obtain ⟨t2, x⟩ := p
                    cases x with
                    | error e => rfl
                    | ok res2 =>
                      cases t2 with
                      | nil => rfl
                      | node k v l r c n =>
                        simp only [Option.map_some, Option.bind_some, flip]
                        split
                        · cases deleteMin fuel r with
                          | none => rfl
                          | some p =>
                            simp only [Option.bind_some, flip_fixUp_node]
                            cases fixUp (node p.2.1 p.2.2 l p.1 c n) <;> rfl
                        · cases delete cmp key fuel r with
                          | none => rfl
                          | some p =>
                            obtain ⟨l', e⟩ := p
                            cases e with
                            | some e => rfl
                            | none =>
                              simp only [Option.bind_some, flip_fixUp_node]
                              cases fixUp (node k v l l' c n) <;> rfl

/-! ### Deletion -/

theorem Bal.size_ge {t : Tree K V} : ∀ {n : Nat}, Bal t n → 2 ^ n ≤ t.toList.length + 1 := by
  induction t with
  | nil => intro n h; simp only [Bal] at h; subst h; simp
  | node k v l r c len ihl ihr =>
    intro n h
    cases c with
    | true =>
      simp only [Bal] at h
      have := ihl h.1
      simp; omega
    | false =>
      cases n with
      | zero => simp [Bal] at h
      | succ n =>
        simp only [Bal] at h
        have h1 := ihl h.1
        have h2 := ihr h.2.1
        simp [Nat.pow_succ]; omega

theorem delete_root_calls (H : Lawful cmp Valid) {key : K} (hk : Valid key) {t : Tree K V} {n : Nat}
    (hv : AllValid Valid t.toList) (hs : Sorted cmp t.toList) (hh : has cmp key t.toList = true)
    (hlen : LenOK (wt cmp key) t) (hb : Bal t n) (hbl : t.isRed = false)
    {fuel : Nat} (hf : 2 * n ≤ fuel + if t.LR then 0 else 1) :
    ∃ t', delete cmp key fuel t = some (t', none) ∧
      t'.toList = t.toList.filter (fun p => !eqb cmp key p.1) ∧ (∃ m, Bal t'.blacken m) ∧
      LenOK (fun _ => 1) t' := by
  have fin : ∀ {t' : Tree K V}, t'.toList = t.toList.filter (fun p => !eqb cmp key p.1) →
      LenOK (wt cmp key) t' → LenOK (fun _ => 1) t' := by
    intro t' e h
    apply h.one_of_absent (cmp := cmp) (key := key)
    rw [e]; intro p hp; simp at hp; simp [hp.2]
  cases t with
  | nil => simp [has, find] at hh
  | node k v l r c len =>
    simp only [isRed_node] at hbl; subst hbl
    obtain ⟨m, rfl, b1, b2, b3⟩ := hb.black
    cases hl : l.isRed with
    | true =>
      obtain ⟨t', e1, e2, e3, e4, e5⟩ := delete_spec H hk (fuel := fuel) (by simpa [hl] using hf) hv hs hh hlen
        (n := m + 1) (.inl ⟨⟨b1, b2, b3⟩, .inr (by simp [hl])⟩)
      exact ⟨t', e1, e2, e3.blacken', fin e2 e5⟩
    | false =>
      obtain ⟨t', e1, e2, e3, e4, e5⟩ := delete_spec H hk
        (t := node k v l r true len) (fuel := fuel) (by simp [hl] at hf; simp; omega) hv hs hh hlen
        (n := m) (.inl ⟨⟨b1, b2, hl, b3⟩, .inl rfl⟩)
      refine ⟨flip t', ?_, by simpa using e2, ?_, flip_lenOK (fin e2 e5)⟩
      · have := flip_delete (cmp := cmp) key fuel (node k v l r true len)
        rw [e1] at this
        exact this
      · simpa using e3.blacken'

/-- There are enough nodes for the calls of a deletion. -/
theorem Bal.calls_le {t : Tree K V} {n : Nat} (h : Bal t n) (hbl : t.isRed = false) :
    2 * n ≤ t.size + if t.LR then 0 else 1 := by
  have h1 := h.size_ge
  have pw : ∀ m : Nat, m + 1 ≤ 2 ^ m := fun m => Nat.lt_two_pow_self
  rw [size_eq]
  cases n with
  | zero => omega
  | succ m =>
    have hm := pw m
    cases hl : t.LR with
    | false => simp only [Nat.pow_succ] at h1; simp; omega
    | true =>
      cases t with
      | nil => simp at hl
      | node k v l r c len =>
        simp only [isRed_node] at hbl; subst hbl
        simp only [Bal] at h
        simp only [LR_node] at hl
        cases l with
        | nil => simp at hl
        | node lk lv ll lr lc ln =>
          simp only [isRed_node] at hl; subst hl
          have b := h.1
          simp only [Bal] at b
          have g1 := b.1.size_ge
          have g2 := b.2.1.size_ge
          have g3 := h.2.1.size_ge
          simp; omega

theorem delete_root (H : Lawful cmp Valid) {key : K} (hk : Valid key) {t : Tree K V} {n : Nat}
    (hv : AllValid Valid t.toList) (hs : Sorted cmp t.toList) (hh : has cmp key t.toList = true)
    (hlen : LenOK (wt cmp key) t) (hb : Bal t n) (hbl : t.isRed = false) :
    ∃ t', delete cmp key t.size t = some (t', none) ∧
      t'.toList = t.toList.filter (fun p => !eqb cmp key p.1) ∧ (∃ m, Bal t'.blacken m) ∧
      LenOK (fun _ => 1) t' :=
  delete_root_calls H hk hv hs hh hlen hb hbl (hb.calls_le hbl)

theorem preDeleteByKey_spec (H : Lawful cmp Valid) {key : K} (hk : Valid key) :
    ∀ {t : Tree K V}, AllValid Valid t.toList → Sorted cmp t.toList → LenOK (fun _ => 1) t →
      ∃ t', preDeleteByKeyAdjustLen cmp key t = .ok (t', has cmp key t.toList) ∧
        t'.toList = t.toList ∧ SameShape t t' ∧ LenOK (wt cmp key) t' ∧
        (has cmp key t.toList = false → t' = t) := by
  intro t
  induction t with
  | nil => intro _ _ _; exact ⟨nil, rfl, rfl, SameShape.refl _, trivial, fun _ => rfl⟩
  | node k v l r c len ihl ihr =>
    intro hv hs hlen
    simp only [toList_node] at hv hs ⊢
    simp only [LenOK] at hlen
    obtain ⟨res, hres, hc⟩ := H.cases_cmp hk (valid_mid hv)
    rcases hc with ⟨hlt, h1, -, h2⟩ | ⟨hgt, -, h1, h2⟩ | ⟨he, -, -, h1⟩
    · obtain ⟨-, -, hF, -⟩ := mid_lt H hv hs hk h1
      have hab := not_eqb_of_allGt H (valid_right hv) hk (allGt_of_lt H hv hs hk h1)
      obtain ⟨l', e1, e2, e3, e4, e5⟩ := ihl (valid_left hv) (sorted_left hs) hlen.1
      simp only [has, hF] at *
      refine ⟨node k v l' r c (if (find cmp key l.toList).isSome then len - 1 else len),
        by simp [preDeleteByKeyAdjustLen, hres, hlt, e1], by simp [e2],
        e3.node (SameShape.refl r), ?_, ?_⟩
      · simp only [LenOK]
        refine ⟨e4, hlen.2.1.wt_of_absent hab, ?_⟩
        have hkw : wt cmp key k = 1 := by simp only [wt, h2]; rfl
        rw [e2, wsum_wt_absent hab, hkw]
        cases hh : (find cmp key l.toList).isSome with
        | true =>
          have hwl := wsum_wt_has H hk (valid_left hv) (sorted_left hs) hh
          simp; omega
        | false =>
          have hwl := wsum_wt_absent (find_none_iff.1 hh)
          simp; omega
      · intro hh
        simp [hh, e5 hh]
    · obtain ⟨-, -, hF, -⟩ := mid_gt H hv hs hk h1
      have hab := not_eqb_of_allLt H (valid_left hv) hk (allLt_of_gt H hv hs hk h1)
      obtain ⟨r', e1, e2, e3, e4, e5⟩ := ihr (valid_right hv) (sorted_right hs) hlen.2.1
      have hnlt : ¬ res < 0 := by omega
      simp only [has, hF] at *
      refine ⟨node k v l r' c (if (find cmp key r.toList).isSome then len - 1 else len),
        by simp [preDeleteByKeyAdjustLen, hres, hnlt, hgt, e1], by simp [e2],
        (SameShape.refl l).node e3, ?_, ?_⟩
      · simp only [LenOK]
        refine ⟨hlen.1.wt_of_absent hab, e4, ?_⟩
        have hkw : wt cmp key k = 1 := by simp only [wt, h2]; rfl
        rw [e2, wsum_wt_absent hab, hkw]
        cases hh : (find cmp key r.toList).isSome with
        | true =>
          have hwl := wsum_wt_has H hk (valid_right hv) (sorted_right hs) hh
          simp; omega
        | false =>
          have hwl := wsum_wt_absent (find_none_iff.1 hh)
          simp; omega
      · intro hh
        simp [hh, e5 hh]
    · obtain ⟨-, -, hF, -, a1, a2⟩ := mid_eq H hv hs hk h1
      simp only [has, hF]
      refine ⟨node k v l r c (len - 1), by simp [preDeleteByKeyAdjustLen, hres, he], rfl,
        (SameShape.refl l).node (SameShape.refl r), ?_, by simp⟩
      simp only [LenOK]
      refine ⟨hlen.1.wt_of_absent a1, hlen.2.1.wt_of_absent a2, ?_⟩
      rw [hlen.2.2, wsum_wt_absent a1, wsum_wt_absent a2]
      simp [wt, h1]; omega

/-- `DeleteByKey` on an invariant-satisfying map with a valid key. -/
theorem deleteByKey_spec (H : Lawful cmp Valid) {t : Tree K V} (ht : OK cmp Valid t) {key : K}
    (hk : Valid key) :
    ∃ t', deleteByKey cmp key t = some ((has cmp key t.toList, none), t') ∧ OK cmp Valid t' ∧
      t'.toList = t.toList.filter (fun p => !eqb cmp key p.1) ∧
      (has cmp key t.toList = false → t' = t) := by
  obtain ⟨t1, e1, e2, e3, e4, e5⟩ := preDeleteByKey_spec H hk ht.valid ht.sorted ht.lens
  cases hh : has cmp key t.toList with
  | false =>
    have := e5 hh; subst this
    rw [hh] at e1
    refine ⟨t1, by simp [deleteByKey, e1], ht, ?_, fun _ => rfl⟩
    rw [eq_comm, List.filter_eq_self]
    intro p hp; simp [find_none_iff.1 hh p hp]
  | true =>
    rw [hh] at e1
    obtain ⟨n, hb⟩ := ht.bal
    obtain ⟨t2, g1, g2, g3, g4⟩ := delete_root H hk (t := t1) (n := n) (by rw [e2]; exact ht.valid)
      (by rw [e2]; exact ht.sorted) (by rw [e2]; exact hh) e4 (e3.2 _ hb) (by rw [e3.1]; exact ht.black)
    rw [e2] at g2
    refine ⟨t2.blacken, by simp [deleteByKey, e1, g1], ⟨?_, ?_, g3, by simp, blacken_lenOK g4⟩, ?_,
      by simp⟩
    · intro p hp; simp [g2] at hp; exact ht.valid p hp.1
    · simp only [blacken_toList, g2]; exact ht.sorted.sublist List.filter_sublist
    · simp [g2]

theorem eqb_self (H : Lawful cmp Valid) {k : K} (hk : Valid k) : eqb cmp k k = true := by
  simp [eqb, H.refl k hk]

theorem preDeleteByIndex_spec (H : Lawful cmp Valid) :
    ∀ {t : Tree K V} {i : Nat}, AllValid Valid t.toList → Sorted cmp t.toList →
      LenOK (fun _ => 1) t → (hi : i < t.toList.length) →
      ∃ t', preDeleteByIndexAdjustLen (i : Int) t = some (t', (t.toList[i]).1) ∧
        t'.toList = t.toList ∧ SameShape t t' ∧ LenOK (wt cmp (t.toList[i]).1) t' := by
  intro t
  induction t with
  | nil => intro i _ _ _ hi; simp at hi
  | node k v l r c len ihl ihr =>
    intro i hv hs hlen hi
    simp only [toList_node] at hv hs hi ⊢
    simp only [LenOK] at hlen
    have hll : l.len = l.toList.length := by rw [hlen.1.len_eq, wsum_one]
    have hvi : Valid ((l.toList ++ (k, v) :: r.toList)[i]).1 := hv _ (List.getElem_mem hi)
    rcases Nat.lt_trichotomy i l.toList.length with h | h | h
    · have hg : (l.toList ++ (k, v) :: r.toList)[i] = l.toList[i] := List.getElem_append_left h
      rw [hg] at hvi ⊢
      obtain ⟨l', e1, e2, e3, e4⟩ := ihl (valid_left hv) (sorted_left hs) hlen.1 h
      have hlt : ltb cmp (l.toList[i]).1 k = true :=
        (sorted_mid.1 hs).2.2.1 _ (List.getElem_mem h)
      have hab := not_eqb_of_allGt H (valid_right hv) hvi (allGt_of_lt H hv hs hvi hlt)
      have hkk := H.eqb_false_of_lt hvi (valid_mid hv) hlt
      refine ⟨node k v l' r c (len - 1), ?_, by simp [e2], e3.node (SameShape.refl r), ?_⟩
      · have : (i : Int) < l.len := by omega
        simp [preDeleteByIndexAdjustLen, this, e1]
      · simp only [LenOK]
        refine ⟨e4, hlen.2.1.wt_of_absent hab, ?_⟩
        have hwl := wsum_wt_has H hvi (valid_left hv) (sorted_left hs)
          (has_iff.2 ⟨l.toList[i], List.getElem_mem h, eqb_self H hvi⟩)
        have hkw : wt cmp (l.toList[i]).1 k = 1 := by simp only [wt, hkk]; rfl
        rw [e2, wsum_wt_absent hab, hkw]
        omega
    · have hg : (l.toList ++ (k, v) :: r.toList)[i] = (k, v) := by
        subst h; simp
      rw [hg] at hvi ⊢
      obtain ⟨-, -, -, -, a1, a2⟩ := mid_eq H hv hs hvi (eqb_self H hvi)
      refine ⟨node k v l r c (len - 1), ?_, rfl, (SameShape.refl l).node (SameShape.refl r), ?_⟩
      · have h1 : ¬ (i : Int) < l.len := by omega
        have h2 : ¬ (i : Int) > l.len := by omega
        simp [preDeleteByIndexAdjustLen, h1, h2]
      · simp only [LenOK]
        refine ⟨hlen.1.wt_of_absent a1, hlen.2.1.wt_of_absent a2, ?_⟩
        have hkw : wt cmp k k = 0 := by simp only [wt, eqb_self H hvi]; rfl
        rw [hlen.2.2, wsum_wt_absent a1, wsum_wt_absent a2, hkw]
        omega
    · have hj : i - l.toList.length - 1 < r.toList.length := by simp at hi; omega
      have hg : (l.toList ++ (k, v) :: r.toList)[i] = r.toList[i - l.toList.length - 1] := by
        rw [List.getElem_append_right (by omega)]
        rw [List.getElem_cons]
        split
        · omega
        · rfl
      rw [hg] at hvi ⊢
      obtain ⟨r', e1, e2, e3, e4⟩ := ihr (valid_right hv) (sorted_right hs) hlen.2.1 hj
      have hgt : ltb cmp k (r.toList[i - l.toList.length - 1]).1 = true :=
        (sorted_mid.1 hs).2.2.2.1 _ (List.getElem_mem hj)
      have hab := not_eqb_of_allLt H (valid_left hv) hvi (allLt_of_gt H hv hs hvi hgt)
      have hkk := H.eqb_false_of_gt hvi (valid_mid hv) hgt
      refine ⟨node k v l r' c (len - 1), ?_, by simp [e2], (SameShape.refl l).node e3, ?_⟩
      · have h1 : ¬ (i : Int) < l.len := by omega
        have h2 : (i : Int) > l.len := by omega
        have h3 : (i : Int) - l.len - 1 = ((i - l.toList.length - 1 : Nat) : Int) := by omega
        rw [← h3] at e1
        simp [preDeleteByIndexAdjustLen, h1, h2, e1]
      · simp only [LenOK]
        refine ⟨hlen.1.wt_of_absent hab, e4, ?_⟩
        have hwl := wsum_wt_has H hvi (valid_right hv) (sorted_right hs)
          (has_iff.2 ⟨_, List.getElem_mem hj, eqb_self H hvi⟩)
        have hkw : wt cmp (r.toList[i - l.toList.length - 1]).1 k = 1 := by simp only [wt, hkk]; rfl
        rw [e2, wsum_wt_absent hab, hkw]
        omega

theorem filter_eq_eraseIdx (H : Lawful cmp Valid) {l : List (K × V)} (hv : AllValid Valid l)
    (hs : Sorted cmp l) {i : Nat} (hi : i < l.length) :
    l.filter (fun p => !eqb cmp (l[i]).1 p.1) = l.eraseIdx i := by
  have hsplit : l = l.take i ++ l[i] :: l.drop (i + 1) := by simp
  have hvi := hv _ (List.getElem_mem hi)
  have := (mid_eq H (l₁ := l.take i) (p := l[i]) (l₂ := l.drop (i + 1)) (k := (l[i]).1)
    (by rw [← hsplit]; exact hv) (by rw [← hsplit]; exact hs) hvi (eqb_self H hvi)).2.2.2.1
  rw [← hsplit] at this
  rw [this, List.eraseIdx_eq_take_drop_succ]

theorem at?_isSome {i : Int} {l : List (K × V)} :
    (at? i l).isSome = decide (0 ≤ i ∧ i < l.length) := by
  unfold at?
  split
  · rename_i h; simp; omega
  · rename_i h
    rw [Bool.eq_iff_iff]
    simp; omega

/-- `DeleteByIndex` on an invariant-satisfying map. -/
theorem deleteByIndex_spec (H : Lawful cmp Valid) {t : Tree K V} (ht : OK cmp Valid t)
    (i : Int) :
    ∃ t', deleteByIndex cmp i t = some (((at? i t.toList).isSome, none), t') ∧ OK cmp Valid t' ∧
      t'.toList = (if (at? i t.toList).isSome then t.toList.eraseIdx i.toNat else t.toList) ∧
      ((at? i t.toList).isSome = false → t' = t) := by
  rw [at?_isSome]
  have hL := ht.len_eq
  by_cases h : 0 ≤ i ∧ i < t.toList.length
  · obtain ⟨j, rfl⟩ : ∃ j : Nat, i = j := ⟨i.toNat, by omega⟩
    have hj : j < t.toList.length := by omega
    obtain ⟨t1, e1, e2, e3, e4⟩ := preDeleteByIndex_spec H ht.valid ht.sorted ht.lens hj
    obtain ⟨n, hb⟩ := ht.bal
    have hvi := ht.valid _ (List.getElem_mem hj)
    obtain ⟨t2, g1, g2, g3, g4⟩ := delete_root H hvi (t := t1) (n := n) (by rw [e2]; exact ht.valid)
      (by rw [e2]; exact ht.sorted)
      (by rw [e2]; exact has_iff.2 ⟨_, List.getElem_mem hj, eqb_self H hvi⟩)
      e4 (e3.2 _ hb) (by rw [e3.1]; exact ht.black)
    rw [e2, filter_eq_eraseIdx H ht.valid ht.sorted] at g2
    have hd : decide (0 ≤ (j : Int) ∧ (j : Int) < t.toList.length) = true := decide_eq_true h
    rw [hd]
    refine ⟨t2.blacken, ?_, ⟨?_, ?_, g3, by simp, blacken_lenOK g4⟩, by simp [g2], by simp⟩
    · have h1 : ¬ ((j : Int) < 0 ∨ t.isNil = true ∨ (j : Int) ≥ t.len) := by
        rintro (h' | h' | h')
        · omega
        · cases t with
          | nil => simp at hj
          | node => simp [isNil] at h'
        · omega
      simp [deleteByIndex, if_neg h1, e1, g1]
    · intro p hp; rw [blacken_toList, g2] at hp; exact ht.valid p (List.mem_of_mem_eraseIdx hp)
    · simp only [blacken_toList, g2]; exact ht.sorted.sublist (List.eraseIdx_sublist _ _)
  · have h1 : i < 0 ∨ t.isNil = true ∨ i ≥ t.len := by omega
    rw [decide_eq_false h]
    exact ⟨t, by simp [deleteByIndex, if_pos h1], ht, by simp, fun _ => rfl⟩

end SM.LLRB.Tree

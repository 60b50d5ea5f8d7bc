import Verif.LLRB.Api

/-! Look-ups, patches, bisects and Validate on the LLRB model. -/

namespace SM.LLRB.Tree

open Spec

variable {K V : Type} {cmp : Compare K} {Valid : K → Prop}

theorem LenOK.one_len {t : Tree K V} (h : LenOK (fun _ => 1) t) : t.len = t.toList.length := by
  rw [h.len_eq, wsum_one]

theorem getByKey_spec (H : Lawful cmp Valid) {key : K} (hk : Valid key) :
    ∀ {t : Tree K V}, AllValid Valid t.toList → Sorted cmp t.toList →
      getByKey cmp key t = ((find cmp key t.toList).map Prod.snd, none) := by
  intro t
  induction t with
  | nil => intro _ _; rfl
  | node k v l r c len ihl ihr =>
    intro hv hs
    simp only [toList_node] at hv hs ⊢
    obtain ⟨res, hres, hc⟩ := H.cases_cmp hk (valid_mid hv)
    rcases hc with ⟨hlt, h1, -, h2⟩ | ⟨hgt, -, h1, h2⟩ | ⟨he, -, -, h1⟩
    · rw [(mid_lt H hv hs hk h1).2.2.1]
      simp [getByKey, hres, hlt, ihl (valid_left hv) (sorted_left hs)]
    · have hnlt : ¬ res < 0 := by omega
      rw [(mid_gt H hv hs hk h1).2.2.1]
      simp [getByKey, hres, hnlt, hgt, ihr (valid_right hv) (sorted_right hs)]
    · rw [(mid_eq H hv hs hk h1).2.2.1]
      simp [getByKey, hres, he]

theorem getElem?_mid {α : Type} {l₁ l₂ : List α} {p : α} {i : Nat} :
    (l₁ ++ p :: l₂)[i]? = if i < l₁.length then l₁[i]? else if i = l₁.length then some p
      else l₂[i - l₁.length - 1]? := by
  split
  · rename_i h; exact List.getElem?_append_left h
  · rename_i h
    rw [List.getElem?_append_right (by omega)]
    split
    · rename_i h'; simp [h']
    · rename_i h'
      rw [List.getElem?_cons]
      rw [if_neg (by omega)]

theorem getByIndexLoop_spec : ∀ {k : K} {v : V} {l r : Tree K V} {c n} {b index : Int},
    LenOK (fun _ => 1) (node k v l r c n) →
    0 ≤ index - b → index - b < (node k v l r c n).toList.length →
    getByIndexLoop index (node k v l r c n) (b + l.len) =
      (node k v l r c n).toList[(index - b).toNat]? := by
  intro k v l r c n
  induction h : (node k v l r c n).size using Nat.strongRecOn generalizing k v l r c n with
  | ind m ih =>
    intro b index hlen h1 h2
    subst h
    simp only [LenOK] at hlen
    have hll := hlen.1.one_len
    rw [toList_node, getElem?_mid]
    unfold getByIndexLoop
    simp only [toList_node, List.length_append, List.length_cons] at h2
    by_cases e : b + l.len = index
    · rw [if_pos e, if_neg (by omega), if_pos (by omega)]
    · rw [if_neg e]
      by_cases g : b + l.len > index
      · rw [if_pos g, if_pos (by omega)]
        cases l with
        | nil => simp [len] at g; omega
        | node lk lv ll lr lc ln =>
          have hr := hlen.1
          simp only [LenOK] at hr
          have e1 := hr.1.one_len
          have e2 := hr.2.1.one_len
          simp only [toList_node, List.length_append, List.length_cons] at hll h2
          have : b + (node lk lv ll lr lc ln).len - lr.len - 1 = b + ll.len := by omega
          dsimp only
          rw [this, ih _ (by simp [size]; omega) rfl hlen.1 h1 (by simp; omega)]
      · rw [if_neg g, if_neg (by omega), if_neg (by omega)]
        cases r with
        | nil => simp at h2; omega
        | node rk rv rl rr rc rn =>
          have hr := hlen.2.1
          simp only [LenOK] at hr
          have e1 := hr.1.one_len
          simp only [toList_node, List.length_append, List.length_cons] at h2
          have h3 : b + l.len + rl.len + 1 = (b + l.len + 1) + rl.len := by omega
          simp only [h3]
          rw [ih _ (by simp [size]; omega) rfl hlen.2.1 (by omega) (by simp; omega)]
          congr 1
          omega

theorem getByIndex_spec {t : Tree K V} (hlen : LenOK (fun _ => 1) t) (i : Int) :
    getByIndex i t = some (at? i t.toList) := by
  cases t with
  | nil => simp [getByIndex, at?]
  | node k v l r c n =>
    have hl := hlen.one_len
    simp only [len] at hl
    simp only [getByIndex]
    split
    · rename_i h
      unfold at?
      split
      · rfl
      · rw [List.getElem?_eq_none (by omega)]
    · rename_i h
      have := getByIndexLoop_spec (b := 0) (index := i) hlen (by omega) (by omega)
      simp only [Int.zero_add, Int.sub_zero] at this
      rw [this]
      unfold at?
      rw [if_neg (by omega)]
      rw [List.getElem?_eq_getElem (by omega)]; rfl

theorem bisectLeftLoop_spec (H : Lawful cmp Valid) {key : K} (hk : Valid key) :
    ∀ {k : K} {v : V} {l r : Tree K V} {c n} {b : Int},
    AllValid Valid (node k v l r c n).toList → Sorted cmp (node k v l r c n).toList →
    LenOK (fun _ => 1) (node k v l r c n) →
    bisectLeftLoop cmp key (node k v l r c n) (b + l.len) =
      some (if has cmp key (node k v l r c n).toList
        then (b + (below cmp key (node k v l r c n).toList).length, true, none)
        else (b + (below cmp key (node k v l r c n).toList).length - 1, false, none)) := by
  intro k v l r c n
  induction h : (node k v l r c n).size using Nat.strongRecOn generalizing k v l r c n with
  | ind m ih =>
    intro b hv hs hlen
    subst h
    simp only [LenOK] at hlen
    have hll := hlen.1.one_len
    simp only [toList_node] at hv hs ⊢
    obtain ⟨res, hres, hc⟩ := H.cases_cmp hk (valid_mid hv)
    rcases hc with ⟨hlt, h1, -, h2⟩ | ⟨hgt, -, h1, h2⟩ | ⟨he, -, -, h1⟩
    · obtain ⟨hB, -, hF, -⟩ := mid_lt H hv hs hk h1
      have hne : ¬ res = 0 := by omega
      cases l with
      | nil =>
        simp only [has, hB, hF]
        simp [bisectLeftLoop, hres, hne, hlt, find, below, len]
      | node lk lv ll lr lc ln =>
        have hr := hlen.1
        simp only [LenOK] at hr
        have e1 := hr.1.one_len
        have e2 := hr.2.1.one_len
        simp only [toList_node, List.length_append, List.length_cons] at hll
        have : b + (node lk lv ll lr lc ln).len - lr.len - 1 = b + ll.len := by omega
        unfold bisectLeftLoop; rw [hres]; dsimp only
        simp only [hne, hlt, if_false, if_true, this]
        rw [ih _ (by simp [size]; omega) rfl (valid_left hv) (sorted_left hs) hlen.1]
        simp only [has, hB, hF]
        rfl
    · obtain ⟨hB, -, hF, -⟩ := mid_gt H hv hs hk h1
      have hne : ¬ res = 0 := by omega
      have hnlt : ¬ res < 0 := by omega
      cases r with
      | nil =>
        simp only [has, hB, hF]
        simp [bisectLeftLoop, hres, hne, hnlt, find, below]
        omega
      | node rk rv rl rr rc rn =>
        have : b + l.len + rl.len + 1 = (b + l.len + 1) + rl.len := by omega
        unfold bisectLeftLoop; rw [hres]; dsimp only
        simp only [hne, hnlt, if_false, this]
        rw [ih _ (by simp [size]; omega) rfl (valid_right hv) (sorted_right hs) hlen.2.1]
        simp only [has, hB, hF, List.length_append, List.length_cons, hll]
        split <;> simp <;> omega
    · obtain ⟨hB, -, hF, -⟩ := mid_eq H hv hs hk h1
      simp only [has, hB, hF]
      simp [bisectLeftLoop, hres, he, hll]

theorem bisectRightLoop_spec (H : Lawful cmp Valid) {key : K} (hk : Valid key) :
    ∀ {k : K} {v : V} {l r : Tree K V} {c n} {b : Int},
    AllValid Valid (node k v l r c n).toList → Sorted cmp (node k v l r c n).toList →
    LenOK (fun _ => 1) (node k v l r c n) →
    bisectRightLoop cmp key (node k v l r c n) (b + l.len) =
      some (b + (below cmp key (node k v l r c n).toList).length,
        has cmp key (node k v l r c n).toList, none) := by
  intro k v l r c n
  induction h : (node k v l r c n).size using Nat.strongRecOn generalizing k v l r c n with
  | ind m ih =>
    intro b hv hs hlen
    subst h
    simp only [LenOK] at hlen
    have hll := hlen.1.one_len
    simp only [toList_node] at hv hs ⊢
    obtain ⟨res, hres, hc⟩ := H.cases_cmp hk (valid_mid hv)
    rcases hc with ⟨hlt, h1, -, h2⟩ | ⟨hgt, -, h1, h2⟩ | ⟨he, -, -, h1⟩
    · obtain ⟨hB, -, hF, -⟩ := mid_lt H hv hs hk h1
      have hne : ¬ res = 0 := by omega
      cases l with
      | nil =>
        simp only [has, hB, hF]
        simp [bisectRightLoop, hres, hne, hlt, find, below, len]
      | node lk lv ll lr lc ln =>
        have hr := hlen.1
        simp only [LenOK] at hr
        have e1 := hr.1.one_len
        have e2 := hr.2.1.one_len
        simp only [toList_node, List.length_append, List.length_cons] at hll
        have : b + (node lk lv ll lr lc ln).len - lr.len - 1 = b + ll.len := by omega
        unfold bisectRightLoop; rw [hres]; dsimp only
        simp only [hne, hlt, if_false, if_true, this]
        rw [ih _ (by simp [size]; omega) rfl (valid_left hv) (sorted_left hs) hlen.1]
        simp only [has, hB, hF]
    · obtain ⟨hB, -, hF, -⟩ := mid_gt H hv hs hk h1
      have hne : ¬ res = 0 := by omega
      have hnlt : ¬ res < 0 := by omega
      cases r with
      | nil =>
        simp only [has, hB, hF]
        simp [bisectRightLoop, hres, hne, hnlt, find, below]
        omega
      | node rk rv rl rr rc rn =>
        have : b + l.len + rl.len + 1 = (b + l.len + 1) + rl.len := by omega
        unfold bisectRightLoop; rw [hres]; dsimp only
        simp only [hne, hnlt, if_false, this]
        rw [ih _ (by simp [size]; omega) rfl (valid_right hv) (sorted_right hs) hlen.2.1]
        simp only [has, hB, hF, List.length_append, List.length_cons, hll]
        simp; omega
    · obtain ⟨hB, -, hF, -⟩ := mid_eq H hv hs hk h1
      simp only [has, hB, hF]
      simp [bisectRightLoop, hres, he, hll]

theorem bisectLeft_spec (H : Lawful cmp Valid) {t : Tree K V} (ht : OK cmp Valid t) {key : K}
    (hk : Valid key) :
    bisectLeft cmp key t = some (if has cmp key t.toList
        then (((below cmp key t.toList).length : Int), true, none)
        else (((below cmp key t.toList).length : Int) - 1, false, none)) := by
  cases t with
  | nil => simp [bisectLeft, has, find, below]
  | node k v l r c n =>
    have := bisectLeftLoop_spec H hk (b := 0) ht.valid ht.sorted ht.lens
    simp only [Int.zero_add] at this
    unfold bisectLeft; dsimp only; rw [this]

theorem bisectRight_spec (H : Lawful cmp Valid) {t : Tree K V} (ht : OK cmp Valid t) {key : K}
    (hk : Valid key) :
    bisectRight cmp key t =
      some (((below cmp key t.toList).length : Int), has cmp key t.toList, none) := by
  cases t with
  | nil => simp [bisectRight, has, find, below]
  | node k v l r c n =>
    have := bisectRightLoop_spec H hk (b := 0) ht.valid ht.sorted ht.lens
    simp only [Int.zero_add] at this
    unfold bisectRight; dsimp only; rw [this]

theorem patchByKey_spec (H : Lawful cmp Valid) {key : K} {value : V} (hk : Valid key) :
    ∀ {t : Tree K V}, AllValid Valid t.toList → Sorted cmp t.toList →
      ∃ t', patchByKey cmp key value t = ((has cmp key t.toList, none), t') ∧
        t'.toList = setKey cmp key value t.toList ∧ SameShape t t' ∧
        t'.len = t.len ∧ (∀ f, LenOK f t → LenOK f t') := by
  intro t
  induction t with
  | nil => intro _ _; exact ⟨nil, rfl, rfl, SameShape.refl _, rfl, fun _ h => h⟩
  | node k v l r c len ihl ihr =>
    intro hv hs
    simp only [toList_node] at hv hs ⊢
    have hmap : ∀ {l : List (K × V)}, (∀ p ∈ l, eqb cmp key p.1 = false) →
        setKey cmp key value l = l := by
      intro l h
      rw [setKey]
      conv => rhs; rw [← List.map_id l]
      apply List.map_congr_left
      intro p hp; simp [h p hp]
    have hws : ∀ f, ∀ l : List (K × V), wsum f (setKey cmp key value l) = wsum f l := by
      intro f l
      induction l with
      | nil => rfl
      | cons p l ih =>
        simp only [setKey, List.map_cons, wsum_cons] at ih ⊢
        rw [ih]; split <;> rfl
    have happ : ∀ {l₁ l₂ : List (K × V)} {p}, setKey cmp key value (l₁ ++ p :: l₂) =
        setKey cmp key value l₁ ++ (if eqb cmp key p.1 then (p.1, value) else p) ::
          setKey cmp key value l₂ := by
      intro l₁ l₂ p; simp [setKey]
    obtain ⟨res, hres, hc⟩ := H.cases_cmp hk (valid_mid hv)
    rcases hc with ⟨hlt, h1, -, h2⟩ | ⟨hgt, -, h1, h2⟩ | ⟨he, -, -, h1⟩
    · obtain ⟨-, -, hF, -⟩ := mid_lt H hv hs hk h1
      have hab := not_eqb_of_allGt H (valid_right hv) hk (allGt_of_lt H hv hs hk h1)
      obtain ⟨l', e1, e2, e3, e4, e5⟩ := ihl (valid_left hv) (sorted_left hs)
      refine ⟨node k v l' r c len, ?_, ?_, e3.node (SameShape.refl r), rfl, ?_⟩
      · simp only [has] at e1; simp [patchByKey, hres, hlt, e1, has, hF]
      · rw [happ, hmap hab, toList_node, e2, if_neg (by simp [h2])]
      · intro f hf
        simp only [LenOK] at hf ⊢
        exact ⟨e5 f hf.1, hf.2.1, by rw [e2, hws]; exact hf.2.2⟩
    · obtain ⟨-, -, hF, -⟩ := mid_gt H hv hs hk h1
      have hab := not_eqb_of_allLt H (valid_left hv) hk (allLt_of_gt H hv hs hk h1)
      have hnlt : ¬ res < 0 := by omega
      obtain ⟨r', e1, e2, e3, e4, e5⟩ := ihr (valid_right hv) (sorted_right hs)
      refine ⟨node k v l r' c len, ?_, ?_, (SameShape.refl l).node e3, rfl, ?_⟩
      · simp only [has] at e1; simp [patchByKey, hres, hnlt, hgt, e1, has, hF]
      · rw [happ, hmap hab, toList_node, e2, if_neg (by simp [h2])]
      · intro f hf
        simp only [LenOK] at hf ⊢
        exact ⟨hf.1, e5 f hf.2.1, by rw [e2, hws]; exact hf.2.2⟩
    · obtain ⟨-, -, hF, -, a1, a2⟩ := mid_eq H hv hs hk h1
      refine ⟨node k value l r c len, ?_, ?_, (SameShape.refl l).node (SameShape.refl r), rfl,
        fun f hf => hf⟩
      · simp [patchByKey, hres, he, has, hF]
      · rw [happ, hmap a1, hmap a2, if_pos h1]; rfl

theorem map_fst_setKey {key : K} {value : V} (l : List (K × V)) :
    (setKey cmp key value l).map Prod.fst = l.map Prod.fst := by
  simp only [setKey, List.map_map]
  apply List.map_congr_left
  intro p _; simp only [Function.comp]; split <;> rfl

theorem map_fst_setIndex {i : Int} {value : V} (l : List (K × V)) :
    (setIndex i value l).map Prod.fst = l.map Prod.fst := by
  simp only [setIndex]
  apply List.ext_getElem?
  intro j
  simp only [List.getElem?_map, List.getElem?_modify]
  split
  · rename_i h; subst h; cases l[i.toNat]? <;> rfl
  · cases l[j]? <;> rfl

theorem valid_of_map_fst {l l' : List (K × V)} (h : l'.map Prod.fst = l.map Prod.fst)
    (hv : AllValid Valid l) : AllValid Valid l' := by
  intro p hp
  have : p.1 ∈ l.map Prod.fst := by rw [← h]; exact List.mem_map_of_mem hp
  obtain ⟨q, hq, e⟩ := List.mem_map.1 this
  rw [← e]; exact hv q hq

theorem sorted_of_map_fst {l l' : List (K × V)} (h : l'.map Prod.fst = l.map Prod.fst)
    (hs : Sorted cmp l) : Sorted cmp l' := by
  have e : ∀ l : List (K × V), Sorted cmp l ↔ (l.map Prod.fst).Pairwise (fun a b => ltb cmp a b = true) := by
    intro l; rw [List.pairwise_map]; rfl
  rw [e] at hs ⊢
  rw [h]; exact hs

theorem patchByKey_ok (H : Lawful cmp Valid) {t : Tree K V} (ht : OK cmp Valid t) {key : K}
    {value : V} (hk : Valid key) :
    ∃ t', patchByKey cmp key value t = ((has cmp key t.toList, none), t') ∧ OK cmp Valid t' ∧
      t'.toList = setKey cmp key value t.toList := by
  obtain ⟨t', e1, e2, e3, -, e5⟩ := patchByKey_spec H (value := value) hk ht.valid ht.sorted
  obtain ⟨n, hb⟩ := ht.bal
  refine ⟨t', e1, ⟨?_, ?_, ⟨n, e3.2 _ hb⟩, by rw [e3.1]; exact ht.black, e5 _ ht.lens⟩, e2⟩
  · rw [e2]; exact valid_of_map_fst (map_fst_setKey _) ht.valid
  · rw [e2]; exact sorted_of_map_fst (map_fst_setKey _) ht.sorted

theorem modify_append' {α : Type} (f : α → α) (l₁ l₂ : List α) (i : Nat) :
    (l₁ ++ l₂).modify i f =
      if i < l₁.length then l₁.modify i f ++ l₂ else l₁ ++ l₂.modify (i - l₁.length) f := by
  induction l₁ generalizing i with
  | nil => simp
  | cons a l ih =>
    cases i with
    | zero => simp
    | succ i =>
      simp only [List.cons_append, List.modify_succ_cons, ih, List.length_cons,
        Nat.add_lt_add_iff_right, Nat.add_sub_add_right]
      split <;> rfl

theorem patchByIndexLoop_spec {value : V} : ∀ {k : K} {v : V} {l r : Tree K V} {c n} {b index : Int},
    LenOK (fun _ => 1) (node k v l r c n) →
    0 ≤ index - b → index - b < (node k v l r c n).toList.length →
    ∃ t', patchByIndexLoop index value (node k v l r c n) (b + l.len) = some t' ∧
      t'.toList = (node k v l r c n).toList.modify (index - b).toNat (fun p => (p.1, value)) ∧
      SameShape (node k v l r c n) t' ∧ LenOK (fun _ => 1) t' := by
  intro k v l r c n
  have hlenmod : ∀ (l : List (K × V)) (i : Nat) (f : K × V → K × V),
      wsum (fun _ => 1) (l.modify i f) = wsum (fun _ => 1) l := by
    intro l i f; rw [wsum_one, wsum_one]; simp
  induction h : (node k v l r c n).size using Nat.strongRecOn generalizing k v l r c n with
  | ind m ih =>
    intro b index hlen h1 h2
    subst h
    have hlen0 := hlen
    simp only [LenOK] at hlen
    have hll := hlen.1.one_len
    rw [toList_node]
    unfold patchByIndexLoop
    simp only [toList_node, List.length_append, List.length_cons] at h2
    by_cases e : b + l.len = index
    · rw [if_pos e]
      refine ⟨_, rfl, ?_, (SameShape.refl l).node (SameShape.refl r), hlen0⟩
      have : (index - b).toNat = l.toList.length := by omega
      rw [this, modify_append']
      simp
    · rw [if_neg e]
      by_cases g : b + l.len > index
      · rw [if_pos g]
        cases l with
        | nil => simp [len] at g; omega
        | node lk lv ll lr lc ln =>
          have hr := hlen.1
          simp only [LenOK] at hr
          have e1 := hr.1.one_len
          have e2 := hr.2.1.one_len
          have hll' := hll
          simp only [toList_node, List.length_append, List.length_cons] at hll h2
          have : b + (node lk lv ll lr lc ln).len - lr.len - 1 = b + ll.len := by omega
          dsimp only
          rw [this]
          obtain ⟨l', g1, g2, g3, g4⟩ := ih _ (by simp [size]; omega) rfl hlen.1 h1
            (by simp; omega)
          refine ⟨node k v l' r c n, by simp [g1], ?_, g3.node (SameShape.refl r), ?_⟩
          · rw [modify_append', if_pos (by omega), toList_node, g2]
          · simp only [LenOK]
            refine ⟨g4, hlen.2.1, ?_⟩
            rw [g2, hlenmod]; exact hlen.2.2
      · rw [if_neg g]
        cases r with
        | nil => simp at h2; omega
        | node rk rv rl rr rc rn =>
          have hr := hlen.2.1
          simp only [LenOK] at hr
          have e1 := hr.1.one_len
          simp only [toList_node, List.length_append, List.length_cons] at h2
          have h3 : b + l.len + rl.len + 1 = (b + l.len + 1) + rl.len := by omega
          simp only [h3]
          obtain ⟨r', g1, g2, g3, g4⟩ := ih _ (by simp [size]; omega) rfl hlen.2.1
            (b := b + l.len + 1) (index := index) (by omega) (by simp; omega)
          refine ⟨node k v l r' c n, by simp [g1], ?_, (SameShape.refl l).node g3, ?_⟩
          · have h4 : (index - b).toNat - l.toList.length = (index - (b + l.len + 1)).toNat + 1 := by
              omega
            rw [modify_append', if_neg (by omega), h4, toList_node, g2]
            simp [List.modify_succ_cons]
          · simp only [LenOK]
            refine ⟨hlen.1, g4, ?_⟩
            rw [g2, hlenmod]; exact hlen.2.2

theorem patchByIndex_ok {t : Tree K V} (ht : OK cmp Valid t) (i : Int) (value : V) :
    ∃ t', patchByIndex i value t = some (((at? i t.toList).isSome, none), t') ∧ OK cmp Valid t' ∧
      t'.toList = (if (at? i t.toList).isSome then setIndex i value t.toList else t.toList) ∧
      ((at? i t.toList).isSome = false → t' = t) := by
  rw [at?_isSome]
  cases t with
  | nil =>
    have h : ¬ (0 ≤ i ∧ i < ((nil : Tree K V).toList.length : Int)) := by simp <;> omega
    rw [decide_eq_false h]
    exact ⟨nil, rfl, ht, by simp, fun _ => rfl⟩
  | node k v l r c n =>
    have hl := ht.lens.one_len
    simp only [len] at hl
    by_cases h : 0 ≤ i ∧ i < (node k v l r c n).toList.length
    · obtain ⟨t', e1, e2, e3, e4⟩ := patchByIndexLoop_spec (value := value) (b := 0) (index := i)
        ht.lens (by omega) (by omega)
      simp only [Int.zero_add, Int.sub_zero] at e1 e2
      obtain ⟨m, hb⟩ := ht.bal
      rw [decide_eq_true h]
      refine ⟨t', ?_, ⟨?_, ?_, ⟨m, e3.2 _ hb⟩, by rw [e3.1]; exact ht.black, e4⟩, ?_, by simp⟩
      · rw [patchByIndex, if_neg (by omega)]; simp [e1]
      · rw [e2]; exact valid_of_map_fst (map_fst_setIndex _) ht.valid
      · rw [e2]; exact sorted_of_map_fst (map_fst_setIndex _) ht.sorted
      · rw [e2]; rfl
    · rw [decide_eq_false h]
      exact ⟨_, by rw [patchByIndex, if_pos (by omega)], ht, by simp, fun _ => rfl⟩

theorem validate_none {t : Tree K V} (h : LenOK (fun _ => 1) t) : t.validate = none := by
  induction t with
  | nil => rfl
  | node k v l r c n ihl ihr =>
    simp only [LenOK] at h
    have e1 := h.1.len_eq
    have e2 := h.2.1.len_eq
    simp [validate, ihl h.1, ihr h.2.1]
    omega

/-! ### Keys the compare function rejects -/

section
variable (H : Lawful cmp Valid) {key : K} (hk : ¬ Valid key)
include H hk

theorem put_invalid {value : V} {t : Tree K V} (hne : t ≠ nil) :
    ∃ e, put cmp key value t = some ((false, some e), t) ∧
      ∃ p ∈ t.toList, cmp key p.1 = .error e := by
  cases t with
  | nil => exact absurd rfl hne
  | node k v l r c n =>
    obtain ⟨e, he⟩ := H.error_of_not_valid (b := k) hk
    exact ⟨e, by simp [put, insert, he], (k, v), by simp, he⟩

theorem getByKey_invalid {t : Tree K V} (hne : t ≠ nil) :
    ∃ e, getByKey cmp key t = (none, some e) ∧
      ∃ p ∈ t.toList, cmp key p.1 = .error e := by
  cases t with
  | nil => exact absurd rfl hne
  | node k v l r c n =>
    obtain ⟨e, he⟩ := H.error_of_not_valid (b := k) hk
    exact ⟨e, by simp [getByKey, he], (k, v), by simp, he⟩

theorem patchByKey_invalid {value : V} {t : Tree K V} (hne : t ≠ nil) :
    ∃ e, patchByKey cmp key value t = ((false, some e), t) ∧
      ∃ p ∈ t.toList, cmp key p.1 = .error e := by
  cases t with
  | nil => exact absurd rfl hne
  | node k v l r c n =>
    obtain ⟨e, he⟩ := H.error_of_not_valid (b := k) hk
    exact ⟨e, by simp [patchByKey, he], (k, v), by simp, he⟩

theorem deleteByKey_invalid {t : Tree K V} (hne : t ≠ nil) :
    ∃ e, deleteByKey cmp key t = some ((false, some e), t) ∧
      ∃ p ∈ t.toList, cmp key p.1 = .error e := by
  cases t with
  | nil => exact absurd rfl hne
  | node k v l r c n =>
    obtain ⟨e, he⟩ := H.error_of_not_valid (b := k) hk
    exact ⟨e, by simp [deleteByKey, preDeleteByKeyAdjustLen, he], (k, v), by simp, he⟩

theorem bisectLeft_invalid {t : Tree K V} (hne : t ≠ nil) :
    ∃ e, bisectLeft cmp key t = some (0, false, some e) ∧
      ∃ p ∈ t.toList, cmp key p.1 = .error e := by
  cases t with
  | nil => exact absurd rfl hne
  | node k v l r c n =>
    obtain ⟨e, he⟩ := H.error_of_not_valid (b := k) hk
    exact ⟨e, by simp [bisectLeft, bisectLeftLoop, he], (k, v), by simp, he⟩

theorem bisectRight_invalid {t : Tree K V} (hne : t ≠ nil) :
    ∃ e, bisectRight cmp key t = some (0, false, some e) ∧
      ∃ p ∈ t.toList, cmp key p.1 = .error e := by
  cases t with
  | nil => exact absurd rfl hne
  | node k v l r c n =>
    obtain ⟨e, he⟩ := H.error_of_not_valid (b := k) hk
    exact ⟨e, by simp [bisectRight, bisectRightLoop, he], (k, v), by simp, he⟩

end

end SM.LLRB.Tree

import Verif.LLRB.Inv

/-! Put on the LLRB model. -/

namespace SM.LLRB.Tree

open Spec

variable {K V : Type} {cmp : Compare K} {Valid : K → Prop}

theorem insert_spec (H : Lawful cmp Valid) {key : K} {value : V} (hk : Valid key) :
    ∀ {t : Tree K V} {n : Nat}, AllValid Valid t.toList → Sorted cmp t.toList → Bal t n →
      (has cmp key t.toList = true → insert cmp key value t = some .dup) ∧
      (has cmp key t.toList = false → ∃ t', insert cmp key value t = some (.ok t') ∧
        t'.toList = below cmp key t.toList ++ (key, value) :: above cmp key t.toList ∧
        (∀ f, f key = 0 → LenOK f t → LenOK f t') ∧
        (t.isRed = false → Bal t' n) ∧ (t.isRed = true → ARB t' n)) := by
  intro t
  induction t with
  | nil =>
    intro n _ _ hb
    simp only [Bal] at hb
    subst hb
    refine ⟨by simp [has, find], fun _ => ⟨_, rfl, by simp [below, above], ?_, ?_, by simp⟩⟩
    · intro f hf _; simp [LenOK, hf]
    · intro _; simp [Bal]
  | node k v l r c len ihl ihr =>
    intro n hv hs hb
    simp only [toList_node] at hv hs ⊢
    obtain ⟨res, hres, hc⟩ := H.cases_cmp hk (valid_mid hv)
    rcases hc with ⟨hlt, h1, -, -⟩ | ⟨hgt, -, h1, -⟩ | ⟨he, -, -, h1⟩
    · obtain ⟨hB, hA, hF, -⟩ := mid_lt H hv hs hk h1
      have hm : ∃ m, Bal l m ∧ Bal r m ∧ r.isRed = false ∧ (c = true → l.isRed = false) ∧
          n = if c then m else m + 1 := by
        cases c with
        | false => obtain ⟨m, rfl, a⟩ := hb.black; exact ⟨m, a.1, a.2.1, a.2.2, by simp, by simp⟩
        | true => exact ⟨n, hb.1, hb.2.1, hb.2.2.2, fun _ => hb.2.2.1, by simp⟩
      obtain ⟨m, bl, br, rb, lb, hn⟩ := hm
      have ih := ihl (valid_left hv) (sorted_left hs) bl
      simp only [has, hF]
      refine ⟨fun hh => ?_, fun hh => ?_⟩
      · simp [insert, hres, hlt, ih.1 hh]
      · obtain ⟨l', hl', hL, hN, hR1, hR2⟩ := ih.2 hh
        have key1 : ∃ t', fixUp (node k v l' r c len) = some t' ∧ (c = false → Bal t' n) ∧
            (c = true → ARB t' n) := by
          cases c with
          | false =>
            have : Bal l' m ∨ ARB l' m := by
              cases hlr : l.isRed with
              | false => exact .inl (hR1 hlr)
              | true => exact .inr (hR2 hlr)
            obtain ⟨t', ht', b, -⟩ := fixUp_black_left (k := k) (v := v) (len := len) this br rb
            subst hn
            exact ⟨t', ht', fun _ => b, by simp⟩
          | true =>
            have b := hR1 (lb rfl)
            refine ⟨_, fixUp_red_left b br rb, by simp, fun _ => ?_⟩
            simp only [if_true] at hn; subst hn
            exact ⟨b, br, rb⟩
        obtain ⟨t', ht', ht1, ht2⟩ := key1
        have kp := fixUp_keeps ht'
        refine ⟨t', by simp [insert, hres, hlt, hl', ht'], ?_, ?_, ht1, ht2⟩
        · rw [kp.1, hB, hA]; simp [hL]
        · intro f hf hlen
          apply kp.2
          simp only [LenOK] at hlen ⊢
          refine ⟨hN f hf hlen.1, hlen.2.1, ?_⟩
          have e1 := (hN f hf hlen.1).len_eq
          have : wsum f l'.toList = wsum f l.toList := by
            have hh : ∀ p ∈ l.toList, eqb cmp key p.1 = false := find_none_iff.1 hh
            have := below_above_wsum H hk (valid_left hv) (sorted_left hs) hh f
            rw [hL]; simp [hf, this]
          omega
    · obtain ⟨hB, hA, hF, -⟩ := mid_gt H hv hs hk h1
      have hm : ∃ m, Bal l m ∧ Bal r m ∧ r.isRed = false ∧ (c = true → l.isRed = false) ∧
          n = if c then m else m + 1 := by
        cases c with
        | false => obtain ⟨m, rfl, a⟩ := hb.black; exact ⟨m, a.1, a.2.1, a.2.2, by simp, by simp⟩
        | true => exact ⟨n, hb.1, hb.2.1, hb.2.2.2, fun _ => hb.2.2.1, by simp⟩
      obtain ⟨m, bl, br, rb, lb, hn⟩ := hm
      have ih := ihr (valid_right hv) (sorted_right hs) br
      have hnlt : ¬ res < 0 := by omega
      simp only [has, hF]
      refine ⟨fun hh => ?_, fun hh => ?_⟩
      · simp [insert, hres, hnlt, hgt, ih.1 hh]
      · obtain ⟨r', hr', hL, hN, hR1, hR2⟩ := ih.2 hh
        have b := hR1 rb
        have key1 : ∃ t', fixUp (node k v l r' c len) = some t' ∧ (c = false → Bal t' n) ∧
            (c = true → ARB t' n) := by
          cases c with
          | false =>
            obtain ⟨t', ht', b', -⟩ := fixUp_black_right (k := k) (v := v) (len := len) bl b
            subst hn
            exact ⟨t', ht', fun _ => b', by simp⟩
          | true =>
            obtain ⟨t', ht', b', -⟩ := fixUp_red_right (k := k) (v := v) (len := len) bl b (lb rfl)
            simp only [if_true] at hn; subst hn
            exact ⟨t', ht', by simp, fun _ => b'⟩
        obtain ⟨t', ht', ht1, ht2⟩ := key1
        have kp := fixUp_keeps ht'
        refine ⟨t', by simp [insert, hres, hnlt, hgt, hr', ht'], ?_, ?_, ht1, ht2⟩
        · rw [kp.1, hB, hA]; simp [hL]
        · intro f hf hlen
          apply kp.2
          simp only [LenOK] at hlen ⊢
          refine ⟨hlen.1, hN f hf hlen.2.1, ?_⟩
          have : wsum f r'.toList = wsum f r.toList := by
            have hh : ∀ p ∈ r.toList, eqb cmp key p.1 = false := find_none_iff.1 hh
            have := below_above_wsum H hk (valid_right hv) (sorted_right hs) hh f
            rw [hL]; simp [hf, this]
          omega
    · obtain ⟨-, -, hF, -⟩ := mid_eq H hv hs hk h1
      simp only [has, hF]
      refine ⟨fun _ => ?_, by simp⟩
      simp [insert, hres, he]

end SM.LLRB.Tree

namespace SM.LLRB.Tree

open Spec

variable {K V : Type} {cmp : Compare K} {Valid : K → Prop}

/-- Weight of a key while `key` is being inserted or deleted: 0 for it, 1 for the others. -/
def wt (cmp : Compare K) (key : K) (k : K) : Int := if eqb cmp key k then 0 else 1

theorem wt_absent {key : K} {l : List (K × V)} (h : ∀ p ∈ l, eqb cmp key p.1 = false) :
    ∀ p ∈ l, wt cmp key p.1 = 1 := fun p hp => by simp [wt, h p hp]

theorem LenOK.one_of_absent {key : K} {t : Tree K V} (h : LenOK (wt cmp key) t)
    (ha : ∀ p ∈ t.toList, eqb cmp key p.1 = false) : LenOK (fun _ => 1) t :=
  h.congr (wt_absent ha)

theorem LenOK.wt_of_absent {key : K} {t : Tree K V} (h : LenOK (fun _ => 1) t)
    (ha : ∀ p ∈ t.toList, eqb cmp key p.1 = false) : LenOK (wt cmp key) t :=
  h.congr (fun p hp => (wt_absent ha p hp).symm)

theorem wsum_wt_absent {key : K} {l : List (K × V)} (h : ∀ p ∈ l, eqb cmp key p.1 = false) :
    wsum (wt cmp key) l = wsum (fun _ => 1) l := wsum_congr (wt_absent h)

theorem wsum_wt_has (H : Lawful cmp Valid) {key : K} (hk : Valid key) {l : List (K × V)}
    (hv : AllValid Valid l) (hs : Sorted cmp l) (hh : has cmp key l = true) :
    wsum (wt cmp key) l + 1 = wsum (fun _ => 1) l := by
  obtain ⟨p, hp, he⟩ := has_iff.1 hh
  obtain ⟨l₁, l₂, rfl⟩ := List.append_of_mem hp
  obtain ⟨-, -, -, -, a1, a2⟩ := mid_eq H hv hs hk he
  simp only [wsum_append, wsum_cons]
  rw [wsum_wt_absent a1, wsum_wt_absent a2]
  simp [wt, he]; omega

theorem wsum_wt_filter {key : K} (l : List (K × V)) :
    wsum (wt cmp key) (l.filter fun p => !eqb cmp key p.1) = wsum (wt cmp key) l := by
  induction l with
  | nil => rfl
  | cons p l ih =>
    cases h : eqb cmp key p.1 with
    | true => rw [List.filter_cons_of_neg (by simp [h])]; simp [ih, wt, h]
    | false => rw [List.filter_cons_of_pos (by simp [h])]; simp [ih]

/-- Same shape and colours. -/
def SameShape (t t' : Tree K V) : Prop := t'.isRed = t.isRed ∧ ∀ n, Bal t n → Bal t' n

theorem SameShape.refl (t : Tree K V) : SameShape t t := ⟨rfl, fun _ h => h⟩

theorem SameShape.node {k k' : K} {v v' : V} {l l' r r' c n n'} (hl : SameShape l l')
    (hr : SameShape r r') : SameShape (node k v l r c n) (node k' v' l' r' c n') := by
  refine ⟨rfl, fun m h => ?_⟩
  cases c with
  | true => exact ⟨hl.2 _ h.1, hr.2 _ h.2.1, hl.1.trans h.2.2.1, hr.1.trans h.2.2.2⟩
  | false =>
    obtain ⟨m, rfl, h⟩ := h.black
    exact ⟨hl.2 _ h.1, hr.2 _ h.2.1, hr.1.trans h.2.2⟩

theorem postInsertAdjustLen_spec (H : Lawful cmp Valid) {key : K} (hk : Valid key) :
    ∀ {t : Tree K V}, AllValid Valid t.toList → Sorted cmp t.toList →
      has cmp key t.toList = true → LenOK (wt cmp key) t →
      ∃ t', postInsertAdjustLen cmp key t = some t' ∧ t'.toList = t.toList ∧ SameShape t t' ∧
        LenOK (fun _ => 1) t' := by
  intro t
  induction t with
  | nil => intro _ _ h; simp [has, find] at h
  | node k v l r c len ihl ihr =>
    intro hv hs hh hlen
    simp only [toList_node] at hv hs hh ⊢
    simp only [LenOK] at hlen
    obtain ⟨res, hres, hc⟩ := H.cases_cmp hk (valid_mid hv)
    rcases hc with ⟨hlt, h1, -, h2⟩ | ⟨hgt, -, h1, h2⟩ | ⟨he, -, -, h1⟩
    · obtain ⟨-, -, hF, -⟩ := mid_lt H hv hs hk h1
      have hab := not_eqb_of_allGt H (valid_right hv) hk (allGt_of_lt H hv hs hk h1)
      simp only [has, hF] at hh
      obtain ⟨l', e1, e2, e3, e4⟩ := ihl (valid_left hv) (sorted_left hs) hh hlen.1
      refine ⟨node k v l' r c (len + 1), by simp [postInsertAdjustLen, hres, hlt, e1], by simp [e2],
        e3.node (SameShape.refl r), ?_⟩
      simp only [LenOK]
      refine ⟨e4, hlen.2.1.one_of_absent hab, ?_⟩
      have hwl := wsum_wt_has H hk (valid_left hv) (sorted_left hs) hh
      rw [hlen.2.2, e2, wsum_wt_absent hab]
      simp only [wt, h2] at hwl ⊢
      simp at hwl ⊢; omega
    · obtain ⟨-, -, hF, -⟩ := mid_gt H hv hs hk h1
      have hab := not_eqb_of_allLt H (valid_left hv) hk (allLt_of_gt H hv hs hk h1)
      simp only [has, hF] at hh
      obtain ⟨r', e1, e2, e3, e4⟩ := ihr (valid_right hv) (sorted_right hs) hh hlen.2.1
      have hnlt : ¬ res < 0 := by omega
      refine ⟨node k v l r' c (len + 1), by simp [postInsertAdjustLen, hres, hnlt, hgt, e1],
        by simp [e2], (SameShape.refl l).node e3, ?_⟩
      simp only [LenOK]
      refine ⟨hlen.1.one_of_absent hab, e4, ?_⟩
      have hwl := wsum_wt_has H hk (valid_right hv) (sorted_right hs) hh
      rw [hlen.2.2, e2, wsum_wt_absent hab]
      simp only [wt, h2] at hwl ⊢
      simp at hwl ⊢; omega
    · obtain ⟨-, -, -, -, a1, a2⟩ := mid_eq H hv hs hk h1
      refine ⟨node k v l r c (len + 1), by simp [postInsertAdjustLen, hres, he], rfl,
        (SameShape.refl l).node (SameShape.refl r), ?_⟩
      simp only [LenOK]
      refine ⟨hlen.1.one_of_absent a1, hlen.2.1.one_of_absent a2, ?_⟩
      rw [hlen.2.2, wsum_wt_absent a1, wsum_wt_absent a2]
      simp [wt, h1]; omega
/-- The invariant of a map between operations. -/
structure OK (cmp : Compare K) (Valid : K → Prop) (t : Tree K V) : Prop where
  valid : AllValid Valid t.toList
  sorted : Sorted cmp t.toList
  bal : ∃ n, Bal t n
  black : t.isRed = false
  lens : LenOK (fun _ => 1) t

theorem OK.nil : OK cmp Valid (nil : Tree K V) :=
  ⟨by simp, by simp [Sorted], ⟨0, rfl⟩, rfl, trivial⟩

theorem OK.len_eq {t : Tree K V} (h : OK cmp Valid t) : t.len = t.toList.length := by
  rw [h.lens.len_eq, wsum_one]

@[simp] theorem blacken_toList (t : Tree K V) : t.blacken.toList = t.toList := by
  cases t <;> rfl
@[simp] theorem blacken_isRed (t : Tree K V) : t.blacken.isRed = false := by
  cases t <;> rfl
theorem blacken_lenOK {f : K → Int} {t : Tree K V} (h : LenOK f t) : LenOK f t.blacken := by
  cases t with
  | nil => trivial
  | node k v l r c n => exact h
theorem Bal.blacken' {t : Tree K V} {n} (h : Bal t n) : ∃ m, Bal t.blacken m := by
  cases hr : t.isRed with
  | true => exact ⟨_, h.blacken hr⟩
  | false =>
    refine ⟨n, ?_⟩
    cases t with
    | nil => exact h
    | node k v l r c len => simp only [isRed_node] at hr; subst hr; exact h

theorem allValid_insert {l : List (K × V)} {k : K} {v : V} (hk : Valid k)
    (hv : AllValid Valid l) : AllValid Valid (below cmp k l ++ (k, v) :: above cmp k l) := by
  intro p hp
  simp only [List.mem_append, List.mem_cons, below, above, List.mem_filter] at hp
  rcases hp with hp | rfl | hp
  · exact hv p hp.1
  · exact hk
  · exact hv p hp.1

theorem sorted_insert (H : Lawful cmp Valid) {l : List (K × V)} {k : K} {v : V} (hk : Valid k)
    (hv : AllValid Valid l) (hs : Sorted cmp l) :
    Sorted cmp (below cmp k l ++ (k, v) :: above cmp k l) := by
  rw [sorted_mid]
  refine ⟨hs.sublist List.filter_sublist, hs.sublist List.filter_sublist, ?_, ?_, ?_⟩
  · intro p hp; simp only [below, List.mem_filter] at hp; exact hp.2
  · intro p hp; simp only [above, List.mem_filter] at hp; exact hp.2
  · intro a ha b hb
    simp only [below, above, List.mem_filter] at ha hb
    exact H.ltb_trans (hv a ha.1) hk (hv b hb.1) ha.2 hb.2

theorem has_insert (H : Lawful cmp Valid) {l l' : List (K × V)} {k : K} {v : V} (hk : Valid k) :
    has cmp k (l ++ (k, v) :: l') = true := by
  rw [has_iff]
  exact ⟨(k, v), by simp, by simp [eqb, H.refl k hk]⟩

/-- `Put` on an invariant-satisfying map with a valid key. -/
theorem put_spec (H : Lawful cmp Valid) {t : Tree K V} (ht : OK cmp Valid t) {key : K} {value : V}
    (hk : Valid key) :
    ∃ t', put cmp key value t =
        some ((!has cmp key t.toList, none), t') ∧ OK cmp Valid t' ∧
      t'.toList = if has cmp key t.toList then t.toList
        else below cmp key t.toList ++ (key, value) :: above cmp key t.toList := by
  obtain ⟨n, hb⟩ := ht.bal
  have hi := insert_spec H (value := value) hk ht.valid ht.sorted hb
  cases hh : has cmp key t.toList with
  | true => exact ⟨t, by simp [put, hi.1 hh], ht, by simp⟩
  | false =>
    obtain ⟨t1, e1, e2, e3, e4, -⟩ := hi.2 hh
    have hl1 : LenOK (wt cmp key) t1 :=
      e3 _ (by simp [wt, eqb, H.refl key hk]) (ht.lens.wt_of_absent (find_none_iff.1 hh))
    have hv1 : AllValid Valid t1.toList := by rw [e2]; exact allValid_insert hk ht.valid
    have hs1 : Sorted cmp t1.toList := by rw [e2]; exact sorted_insert H hk ht.valid ht.sorted
    obtain ⟨t2, g1, g2, g3, g4⟩ := postInsertAdjustLen_spec H hk hv1 hs1
      (by rw [e2]; exact has_insert H hk) hl1
    refine ⟨t2.blacken, by simp [put, e1, g1], ⟨?_, ?_, ?_, by simp, blacken_lenOK g4⟩, ?_⟩
    · simpa [g2] using hv1
    · simpa [g2] using hs1
    · exact (g3.2 _ (e4 ht.black)).blacken'
    · simp [g2, e2]

end SM.LLRB.Tree

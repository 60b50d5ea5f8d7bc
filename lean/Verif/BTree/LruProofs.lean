import Verif.BTree.Lru

/-!
The cache lists: every operation of `Verif/BTree/Lru.lean` on well-formed lists succeeds (does not
panic) and is the obvious operation on lists.
-/

namespace SM.BT

theorem upd_same {ι α : Type} [DecidableEq ι] (f : ι → α) (i : ι) (a : α) : upd f i a i = a := by simp [upd]
theorem upd_ne {ι α : Type} [DecidableEq ι] (f : ι → α) {i j : ι} (a : α) (h : j ≠ i) : upd f i a j = f j := by
  simp [upd, h]

/-- The links of consecutive elements, from predecessor `p` to successor `n`. -/
def Seg (el : Id → LruEl) : Option Id → List Id → Option Id → Prop
  | _, [], _ => True
  | p, x :: l, n => (el x).prev = p ∧ (el x).next = l.head?.or n ∧ Seg el (some x) l n

theorem seg_append {el : Id → LruEl} : ∀ {a b : List Id} {p n : Option Id},
    Seg el p (a ++ b) n ↔ Seg el p a (b.head?.or n) ∧ Seg el (a.getLast?.or p) b n
  | [], b, p, n => by simp [Seg]
  | x :: a, b, p, n => by
      simp only [List.cons_append, Seg, seg_append (a := a)]
      cases a with
      | nil => simp [and_assoc]
      | cons y a =>
          have : ((x :: y :: a).getLast?.or p) = ((y :: a).getLast?.or (some x)) := by
            simp [List.getLast?_cons]
          rw [this]
          simp [and_assoc]

theorem seg_congr {el el' : Id → LruEl} : ∀ {a : List Id} {p n : Option Id},
    (∀ x ∈ a, (el' x).prev = (el x).prev ∧ (el' x).next = (el x).next) → Seg el p a n → Seg el' p a n
  | [], _, _, _, _ => trivial
  | x :: a, p, n, h, hs => by
      obtain ⟨h1, h2, h3⟩ := hs
      refine ⟨(h x (by simp)).1.trans h1, (h x (by simp)).2.trans h2, ?_⟩
      exact seg_congr (fun y hy => h y (by simp [hy])) h3

/-- The list structure describes the list. -/
structure Lst (L : LruList) (l : List Id) : Prop where
  head : L.head = l.head?
  tail : L.tail = l.getLast?
  items : L.items = l.length

theorem concat_cases (a : List Id) : a = [] ∨ ∃ a' p, a = a' ++ [p] := by
  rcases List.eq_nil_or_concat a with h | ⟨a', p, h⟩
  · exact .inl h
  · exact .inr ⟨a', p, by simpa using h⟩

namespace LruS

/-- What a list operation on list `d` does: `l` becomes `l'`, and the tag of `x` becomes `t`. -/
structure Eff (s s' : LruS) (d : Bool) (l l' : List Id) (x : Id) (t : Tag) : Prop where
  other : s'.lst (!d) = s.lst (!d)
  lst : Lst (s'.lst d) l'
  seg : Seg s'.el none l' none
  frame : ∀ y, y ≠ x → y ∉ l → s'.el y = s.el y
  tags : ∀ y, y ≠ x → (s'.el y).tag = (s.el y).tag
  tag : (s'.el x).tag = t

@[simp] theorem lst_setLst (s : LruS) (d : Bool) (L : LruList) : (s.setLst d L).lst d = L := by
  cases d <;> rfl
@[simp] theorem lst_setLst_not (s : LruS) (d : Bool) (L : LruList) :
    (s.setLst d L).lst (!d) = s.lst (!d) := by cases d <;> rfl
@[simp] theorem el_setLst (s : LruS) (d : Bool) (L : LruList) : (s.setLst d L).el = s.el := by
  cases d <;> rfl
@[simp] theorem lst_setNext (s : LruS) (d : Bool) (x : Id) (p) : (s.setNext x p).lst d = s.lst d := rfl
@[simp] theorem lst_setPrev (s : LruS) (d : Bool) (x : Id) (p) : (s.setPrev x p).lst d = s.lst d := rfl
@[simp] theorem lst_setTag (s : LruS) (d : Bool) (x : Id) (p) : (s.setTag x p).lst d = s.lst d := rfl
theorem el_setNext (s : LruS) (x : Id) (p) (y : Id) :
    (s.setNext x p).el y = if y = x then { s.el x with next := p } else s.el y := rfl
theorem el_setPrev (s : LruS) (x : Id) (p) (y : Id) :
    (s.setPrev x p).el y = if y = x then { s.el x with prev := p } else s.el y := rfl
theorem el_setTag (s : LruS) (x : Id) (p) (y : Id) :
    (s.setTag x p).el y = if y = x then { s.el x with tag := p } else s.el y := rfl

/-- The neighbours of a list element. -/
theorem seg_at {el : Id → LruEl} {a b : List Id} {x : Id} (h : Seg el none (a ++ x :: b) none) :
    (el x).prev = a.getLast? ∧ (el x).next = b.head? := by
  rw [seg_append] at h
  obtain ⟨_, h1, h2, _⟩ := h
  exact ⟨by simpa using h1, by simpa using h2⟩

theorem head_ne {a b : List Id} {x : Id} (ha : a ≠ []) (hn : (a ++ x :: b).Nodup) :
    (a ++ x :: b).head? ≠ some x := by
  cases a with
  | nil => simp at ha
  | cons y a =>
      simp only [List.cons_append, List.head?_cons, ne_eq, Option.some.injEq]
      rintro rfl
      simp at hn

theorem last_ne {a b : List Id} {x : Id} (hb : b ≠ []) (hn : (a ++ x :: b).Nodup) :
    (a ++ x :: b).getLast? ≠ some x := by
  rcases concat_cases b with rfl | ⟨b, y, rfl⟩
  · simp at hb
  · have : a ++ x :: (b ++ [y]) = (a ++ x :: b) ++ [y] := by simp
    rw [this, List.getLast?_concat]
    simp only [ne_eq, Option.some.injEq]
    rintro rfl
    rw [this] at hn
    simp [List.nodup_append] at hn

/-- Cut `x` out of the chain. -/
theorem seg_cut {el el' : Id → LruEl} {a b : List Id} {x : Id}
    (h : Seg el none (a ++ x :: b) none) (hn : (a ++ x :: b).Nodup)
    (hp : ∀ y ∈ a ++ b, (el' y).prev = if b.head? = some y then a.getLast? else (el y).prev)
    (hx : ∀ y ∈ a ++ b, (el' y).next = if a.getLast? = some y then b.head? else (el y).next) :
    Seg el' none (a ++ b) none := by
  rw [seg_append] at h ⊢
  obtain ⟨ha, _, _, hb⟩ := h
  have hd : ∀ y ∈ a, y ∉ b := by
    intro y hy hy'
    have := (List.nodup_append.1 hn).2.2 y hy y (by simp [hy'])
    exact this rfl
  constructor
  · rcases concat_cases a with rfl | ⟨a, p, rfl⟩
    · trivial
    · rw [seg_append] at ha ⊢
      obtain ⟨ha, h1, h2, _⟩ := ha
      refine ⟨seg_congr ?_ ha, ?_, ?_, trivial⟩
      · intro y hy
        have hyp : p ≠ y := by
          rintro rfl
          have := (List.nodup_append.1 hn).1
          rw [List.nodup_append] at this
          exact this.2.2 p hy p (by simp) rfl
        have hyb : ¬ b.head? = some y := fun hh =>
          hd y (by simp [hy]) (List.mem_of_mem_head? hh)
        rw [hp y (by simp [hy]), hx y (by simp [hy])]
        simp [hyb, hyp]
      · have hyb : ¬ b.head? = some p := fun hh => hd p (by simp) (List.mem_of_mem_head? hh)
        rw [hp p (by simp), if_neg hyb]; exact h1
      · rw [hx p (by simp)]; simp
  · cases b with
    | nil => trivial
    | cons n b =>
        obtain ⟨h1, h2, h3⟩ := hb
        have hna : ∀ y ∈ n :: b, ¬ a.getLast? = some y := fun y hy hh =>
          hd y (List.mem_of_getLast? hh) hy
        refine ⟨?_, ?_, seg_congr ?_ h3⟩
        · rw [hp n (by simp)]; simp
        · rw [hx n (by simp), if_neg (hna n (by simp))]; exact h2
        · intro y hy
          have hny : n ≠ y := by
            rintro rfl
            have := (List.nodup_append.1 hn).2.1
            simp at this
            exact this.2.1 hy
          rw [hp y (by simp [hy]), hx y (by simp [hy]), if_neg (hna y (by simp [hy]))]
          simp [hny]

/-- Hang `x` on at the end. -/
theorem seg_snoc {el el' : Id → LruEl} {l : List Id} {x : Id}
    (h : Seg el none l none) (hn : (l ++ [x]).Nodup)
    (hp : ∀ y ∈ l, (el' y).prev = (el y).prev)
    (hx : ∀ y ∈ l, (el' y).next = if l.getLast? = some y then some x else (el y).next)
    (h1 : (el' x).prev = l.getLast?) (h2 : (el' x).next = none) :
    Seg el' none (l ++ [x]) none := by
  rw [seg_append]
  refine ⟨?_, ?_, ?_, trivial⟩
  · rcases concat_cases l with rfl | ⟨a, p, rfl⟩
    · trivial
    · rw [seg_append] at h ⊢
      obtain ⟨ha, h3, h4, _⟩ := h
      refine ⟨seg_congr ?_ ha, ?_, ?_, trivial⟩
      · intro y hy
        have hyp : p ≠ y := by
          rintro rfl
          have := (List.nodup_append.1 hn).1
          rw [List.nodup_append] at this
          exact this.2.2 p hy p (by simp) rfl
        rw [hp y (by simp [hy]), hx y (by simp [hy])]
        simp [hyp]
      · rw [hp p (by simp)]; exact h3
      · rw [hx p (by simp)]; simp
  · simpa using h1
  · simpa using h2

theorem nodup_mid {a b : List Id} {x : Id} (hn : (a ++ x :: b).Nodup) :
    x ∉ a ∧ x ∉ b ∧ (a ++ b).Nodup ∧ ∀ y ∈ a, y ∉ b := by
  obtain ⟨h1, h2, h3⟩ := List.nodup_append.1 hn
  simp only [List.nodup_cons] at h2
  refine ⟨fun h => h3 x h x (by simp) rfl, h2.1, ?_, fun y hy hy' => h3 y hy y (by simp [hy']) rfl⟩
  rw [List.nodup_append]
  exact ⟨h1, h2.2, fun y hy z hz => h3 y hy z (by simp [hz])⟩

theorem moveToTail_eff {s : LruS} {d : Bool} {a b : List Id} {x : Id}
    (hL : Lst (s.lst d) (a ++ x :: b)) (hs : Seg s.el none (a ++ x :: b) none)
    (hn : (a ++ x :: b).Nodup) :
    ∃ s', s.moveToTail d x = some s' ∧ Eff s s' d (a ++ x :: b) (a ++ b ++ [x]) x (s.el x).tag := by
  obtain ⟨hxa, hxb, hab, hdisj⟩ := nodup_mid hn
  obtain ⟨hp, hx⟩ := seg_at hs
  unfold moveToTail
  rcases concat_cases b with rfl | ⟨b, t, rfl⟩
  · have ht : (s.lst d).tail = some x := by rw [hL.tail]; simp
    simp only [ht, if_true]
    exact ⟨s, rfl, rfl, by simpa using hL, by simpa using hs, fun _ _ _ => rfl, fun _ _ => rfl, rfl⟩
  · have ht : (s.lst d).tail = some t := by
      have : a ++ x :: (b ++ [t]) = (a ++ x :: b) ++ [t] := by simp
      rw [hL.tail, this, List.getLast?_concat]
    have htx : t ≠ x := by rintro rfl; simp at hxb
    have hnl : (a ++ (b ++ [t]) ++ [x]).Nodup := by
      rw [List.nodup_append]
      refine ⟨hab, by simp, ?_⟩
      intro y hy z hz
      simp only [List.mem_singleton] at hz
      subst hz
      rintro rfl
      rcases List.mem_append.1 hy with h | h
      · exact hxa h
      · exact hxb h
    rcases concat_cases a with rfl | ⟨a, p, rfl⟩
    · have hh : (s.lst d).head = some x := by rw [hL.head]; simp
      obtain ⟨h, hbh⟩ : ∃ h, (b ++ [t]).head? = some h := by
        cases b with
        | nil => exact ⟨t, rfl⟩
        | cons y b => exact ⟨y, rfl⟩
      have hhx : h ≠ x := by rintro rfl; exact hxb (List.mem_of_mem_head? hbh)
      rw [hbh] at hx
      simp only [ht, hh, hx, Option.some.injEq, htx, if_false, if_true]
      refine ⟨_, rfl, ?_⟩
      have hcut : Seg (s.setPrev h none).el none ([] ++ (b ++ [t])) none := by
        apply seg_cut hs hn
        · intro y hy
          simp only [el_setPrev, hbh, Option.some.injEq, List.getLast?_nil]
          by_cases hyh : y = h
          · subst hyh; simp
          · simp [hyh, Ne.symm hyh]
        · intro y hy
          simp only [el_setPrev, List.getLast?_nil]
          by_cases hyh : y = h
          · subst hyh; simp
          · simp [hyh]
      refine ⟨by simp, ⟨?_, ?_, ?_⟩, ?_, ?_, ?_, ?_⟩
      · simp only [lst_setLst, List.nil_append]
        rw [List.head?_append, hbh]; rfl
      · simp only [lst_setLst]
        rw [List.getLast?_concat]
      · simp only [lst_setLst]
        rw [hL.items]; simp
      · simp only [el_setLst]
        apply seg_snoc hcut hnl
        · intro y hy
          have hyx : y ≠ x := by rintro rfl; exact hxb (by simpa using hy)
          simp only [el_setNext, el_setPrev]
          by_cases hyt : y = t <;> by_cases hyh : y = h <;> simp_all
        · intro y hy
          have hyx : y ≠ x := by rintro rfl; exact hxb (by simpa using hy)
          have hlast : (([] : List Id) ++ (b ++ [t])).getLast? = some t := by
            rw [← List.append_assoc, List.getLast?_concat]
          simp only [el_setNext, el_setPrev, hlast, Option.some.injEq]
          by_cases hyt : y = t
          · subst hyt; simp
          · simp [hyt, Ne.symm hyt, hyx]
        · simp only [el_setNext, el_setPrev]
          simp [Ne.symm htx]
        · simp only [el_setNext, el_setPrev]
          simp [Ne.symm htx]
      · intro y hyx hy
        have hyt : y ≠ t := by rintro rfl; simp at hy
        have hyh : y ≠ h := by
          rintro rfl; exact hy (by simpa using Or.inr (List.mem_of_mem_head? hbh))
        simp [el_setNext, el_setPrev, hyx, hyt, hyh]
      · intro y hyx
        simp only [el_setLst, el_setNext, el_setPrev]
        by_cases hyt : y = t <;> by_cases hyh : y = h <;> simp_all
      · simp only [el_setLst, el_setNext, el_setPrev]
        simp [Ne.symm htx, Ne.symm hhx]
    · have hh : ¬ (s.lst d).head = some x := by
        rw [hL.head]; exact head_ne (by simp) hn
      obtain ⟨h, hbh⟩ : ∃ h, (b ++ [t]).head? = some h := by
        cases b with
        | nil => exact ⟨t, rfl⟩
        | cons y b => exact ⟨y, rfl⟩
      have hhx : h ≠ x := by rintro rfl; exact hxb (List.mem_of_mem_head? hbh)
      have hpx : p ≠ x := by rintro rfl; simp at hxa
      have hpl : (a ++ [p]).getLast? = some p := by simp
      have hph : p ≠ h := by
        rintro rfl; exact hdisj p (by simp) (List.mem_of_mem_head? hbh)
      have hpt : p ≠ t := by rintro rfl; exact hdisj p (by simp) (by simp)
      rw [hbh] at hx
      rw [hpl] at hp
      simp only [ht, hh, hx, hp, Option.some.injEq, htx, if_false]
      refine ⟨_, rfl, ?_⟩
      have hcut : Seg ((s.setNext p (some h)).setPrev h (some p)).el none ((a ++ [p]) ++ (b ++ [t])) none := by
        apply seg_cut hs hn
        · intro y hy
          simp only [el_setPrev, el_setNext, hbh, Option.some.injEq, hpl]
          by_cases hyh : y = h
          · subst hyh; simp
          · by_cases hyp : y = p
            · subst hyp; simp [hyh, Ne.symm hyh]
            · simp [hyh, Ne.symm hyh, hyp]
        · intro y hy
          simp only [el_setPrev, el_setNext, hpl, hbh, Option.some.injEq]
          by_cases hyp : y = p
          · subst hyp; simp [hph]
          · by_cases hyh : y = h
            · subst hyh; simp [hyp, Ne.symm hyp]
            · simp [hyh, hyp, Ne.symm hyp]
      refine ⟨by simp, ⟨?_, ?_, ?_⟩, ?_, ?_, ?_, ?_⟩
      · simp only [lst_setLst]
        rw [hL.head]; cases a <;> simp
      · simp only [lst_setLst]
        rw [List.getLast?_concat]
      · simp only [lst_setLst]
        rw [hL.items]; simp
      · simp only [el_setLst]
        apply seg_snoc hcut hnl
        · intro y hy
          have hyx : y ≠ x := by
            rintro rfl
            rcases List.mem_append.1 hy with h | h
            · exact hxa h
            · exact hxb h
          simp only [el_setNext, el_setPrev]
          by_cases hyt : y = t
          · subst hyt; simp [hyx]
          · simp [hyt, hyx]
        · intro y hy
          have hyx : y ≠ x := by
            rintro rfl
            rcases List.mem_append.1 hy with h | h
            · exact hxa h
            · exact hxb h
          have hlast : ((a ++ [p]) ++ (b ++ [t])).getLast? = some t := by
            rw [← List.append_assoc, List.getLast?_concat]
          simp only [el_setNext, el_setPrev, hlast, Option.some.injEq]
          by_cases hyt : y = t
          · subst hyt; simp
          · simp [hyt, Ne.symm hyt, hyx]
        · have hlast : ((a ++ [p]) ++ (b ++ [t])).getLast? = some t := by
            rw [← List.append_assoc, List.getLast?_concat]
          simp only [el_setNext, el_setPrev, hlast]
          simp [Ne.symm htx]
        · simp only [el_setNext, el_setPrev]
          simp [Ne.symm htx]
      · intro y hyx hy
        have hyt : y ≠ t := by rintro rfl; simp at hy
        have hyp : y ≠ p := by rintro rfl; simp at hy
        have hyh : y ≠ h := by
          rintro rfl; exact hy (List.mem_append_right _ (List.mem_cons_of_mem _ (List.mem_of_mem_head? hbh)))
        simp [el_setNext, el_setPrev, hyx, hyt, hyh, hyp]
      · intro y hyx
        simp only [el_setLst, el_setNext, el_setPrev]
        by_cases hyt : y = t <;> by_cases hyh : y = h <;> by_cases hyp : y = p <;> simp_all
      · simp only [el_setLst, el_setNext, el_setPrev]
        simp [Ne.symm htx, Ne.symm hhx, Ne.symm hpx]

theorem tail_of_items {L : LruList} {l : List Id} (hL : Lst L l) (h : L.items ≠ 0) :
    ∃ t, L.tail = some t ∧ l.getLast? = some t ∧ t ∈ l := by
  rcases concat_cases l with rfl | ⟨a, p, rfl⟩
  · exact absurd hL.items h
  · exact ⟨p, by rw [hL.tail]; simp, by simp, by simp⟩

theorem nodup_snoc {l : List Id} {x : Id} (hn : l.Nodup) (hx : x ∉ l) : (l ++ [x]).Nodup := by
  rw [List.nodup_append]
  refine ⟨hn, by simp, ?_⟩
  intro y hy z hz
  simp only [List.mem_singleton] at hz
  subst hz
  rintro rfl
  exact hx hy

/-- Both ways of appending. -/
theorem snoc_eff {s s' : LruS} {d : Bool} {l : List Id} {x t : Id} {T : Tag}
    (hs : Seg s.el none l none) (hn : l.Nodup) (hx : x ∉ l) (hlast : l.getLast? = some t)
    (hL : Lst (s.lst d) l)
    (hnext : (s.el x).next = none)
    (hel : ∀ y, s'.el y = if y = x then { tag := T, prev := some t, next := none }
      else if y = t then { s.el t with next := some x } else s.el y)
    (hl : s'.lst d = { s.lst d with tail := some x, items := (s.lst d).items + 1 })
    (ho : s'.lst (!d) = s.lst (!d)) :
    Eff s s' d l (l ++ [x]) x T := by
  have htl : t ∈ l := List.mem_of_getLast? hlast
  have htx : t ≠ x := by rintro rfl; exact hx htl
  refine ⟨ho, ⟨?_, ?_, ?_⟩, ?_, ?_, ?_, ?_⟩
  · rw [hl, List.head?_append]
    simp only
    rw [hL.head]
    cases l with
    | nil => simp at hlast
    | cons y l => rfl
  · rw [hl]; simp
  · rw [hl]; simp [hL.items]
  · apply seg_snoc hs (nodup_snoc hn hx)
    · intro y hy
      have hyx : y ≠ x := by rintro rfl; exact hx hy
      rw [hel]
      by_cases hyt : y = t
      · subst hyt; simp [hyx]
      · simp [hyx, hyt]
    · intro y hy
      have hyx : y ≠ x := by rintro rfl; exact hx hy
      rw [hel, hlast]
      by_cases hyt : y = t
      · subst hyt; simp [hyx]
      · simp [hyx, hyt, Ne.symm hyt]
    · rw [hel, hlast]; simp
    · rw [hel]; simp
  · intro y hyx hy
    have hyt : y ≠ t := by rintro rfl; exact hy htl
    rw [hel]; simp [hyx, hyt]
  · intro y hyx
    rw [hel]
    by_cases hyt : y = t
    · subst hyt; simp [hyx]
    · simp [hyx, hyt]
  · rw [hel]; simp

theorem placeFresh_eff {s : LruS} {d : Bool} {l : List Id} {x : Id}
    (hL : Lst (s.lst d) l) (hs : Seg s.el none l none) (hn : l.Nodup) (hx : x ∉ l)
    (hnext : (s.el x).next = none) (hprev : (s.el x).prev = none) :
    ∃ s', s.placeFresh d x = some s' ∧ Eff s s' d l (l ++ [x]) x (tagOf d) := by
  unfold placeFresh
  by_cases h0 : (s.lst d).items = 0
  · have hl : l = [] := by
      have := hL.items; rw [h0] at this; exact List.eq_nil_of_length_eq_zero this.symm
    subst hl
    simp only [h0, if_true]
    refine ⟨_, rfl, by simp, ⟨by simp, by simp, by simp⟩, ?_, ?_, ?_, ?_⟩
    · simp [Seg, el_setTag, hnext, hprev]
    · intro y hyx _; simp [el_setTag, hyx]
    · intro y hyx; simp [el_setTag, hyx]
    · simp [el_setTag]
  · obtain ⟨t, ht, hlast, htl⟩ := tail_of_items hL h0
    simp only [h0, if_false, ht]
    have htx : t ≠ x := by rintro rfl; exact hx htl
    refine ⟨_, rfl, snoc_eff hs hn hx hlast hL hnext ?_ (by simp) (by simp)⟩
    intro y
    simp only [el_setLst, el_setTag, el_setNext, el_setPrev]
    by_cases hyx : y = x
    · subst hyx; simp [Ne.symm htx, hnext]
    · by_cases hyt : y = t
      · subst hyt; simp [hyx]
      · simp [hyx, hyt]

theorem append_eff {s : LruS} {d : Bool} {l : List Id} {x : Id}
    (hL : Lst (s.lst d) l) (hs : Seg s.el none l none) (hn : l.Nodup) (hx : x ∉ l)
    (hnext : (s.el x).next = none) :
    ∃ s', s.append d x = some s' ∧ Eff s s' d l (l ++ [x]) x (tagOf d) := by
  unfold append
  by_cases h0 : (s.lst d).items = 0
  · have hl : l = [] := by
      have := hL.items; rw [h0] at this; exact List.eq_nil_of_length_eq_zero this.symm
    subst hl
    simp only [h0, if_true]
    refine ⟨_, rfl, by simp, ⟨by simp, by simp, by simp⟩, ?_, ?_, ?_, ?_⟩
    · simp [Seg, el_setTag, el_setPrev, hnext]
    · intro y hyx _; simp [el_setTag, el_setPrev, hyx]
    · intro y hyx; simp [el_setTag, el_setPrev, hyx]
    · simp [el_setTag, el_setPrev]
  · obtain ⟨t, ht, hlast, htl⟩ := tail_of_items hL h0
    simp only [h0, if_false, ht]
    have htx : t ≠ x := by rintro rfl; exact hx htl
    refine ⟨_, rfl, snoc_eff hs hn hx hlast hL hnext ?_ (by simp) (by simp)⟩
    intro y
    simp only [el_setLst, el_setTag, el_setNext, el_setPrev]
    by_cases hyx : y = x
    · subst hyx; simp [Ne.symm htx, hnext]
    · by_cases hyt : y = t
      · subst hyt; simp [hyx]
      · simp [hyx, hyt]

/-- Both ways of taking off: the neighbours of `x` are joined. -/
theorem cut_eff {s s' : LruS} {d : Bool} {a b : List Id} {x : Id} {T : Tag}
    (hL : Lst (s.lst d) (a ++ x :: b)) (hs : Seg s.el none (a ++ x :: b) none)
    (hn : (a ++ x :: b).Nodup)
    (hel : ∀ y, y ≠ x → s'.el y = LruEl.mk (s.el y).tag
      (if a.getLast? = some y then b.head? else (s.el y).next)
      (if b.head? = some y then a.getLast? else (s.el y).prev))
    (htag : (s'.el x).tag = T)
    (hl : Lst (s'.lst d) (a ++ b)) (ho : s'.lst (!d) = s.lst (!d)) :
    Eff s s' d (a ++ x :: b) (a ++ b) x T := by
  obtain ⟨hxa, hxb, hab, hdisj⟩ := nodup_mid hn
  have hne : ∀ y ∈ a ++ b, y ≠ x := by
    rintro y hy rfl
    rcases List.mem_append.1 hy with h | h
    · exact hxa h
    · exact hxb h
  refine ⟨ho, hl, ?_, ?_, ?_, htag⟩
  · apply seg_cut hs hn
    · intro y hy; rw [hel y (hne y hy)]
    · intro y hy; rw [hel y (hne y hy)]
  · intro y hyx hy
    rw [hel y hyx]
    have h1 : ¬ b.head? = some y := fun h => hy (by simp [List.mem_of_mem_head? h])
    have h2 : ¬ a.getLast? = some y := fun h => hy (by simp [List.mem_of_getLast? h])
    simp [h1, h2]
  · intro y hyx
    rw [hel y hyx]

theorem sub64_one {n : Nat} : sub64 (n + 1) 1 = n := by simp [sub64]

theorem remove_eff {s : LruS} {d : Bool} {a b : List Id} {x : Id}
    (hL : Lst (s.lst d) (a ++ x :: b)) (hs : Seg s.el none (a ++ x :: b) none)
    (hn : (a ++ x :: b).Nodup) :
    ∃ s', s.remove d x = some s' ∧ Eff s s' d (a ++ x :: b) (a ++ b) x .noLRU ∧
      (s'.el x).next = none ∧ (s'.el x).prev = none := by
  obtain ⟨hxa, hxb, hab, hdisj⟩ := nodup_mid hn
  obtain ⟨hp, hx⟩ := seg_at hs
  have hitems : (s.lst d).items = (a ++ b).length + 1 := by rw [hL.items]; simp; omega
  unfold remove
  rcases concat_cases a with rfl | ⟨a, p, rfl⟩
  · have hh : (s.lst d).head = some x := by rw [hL.head]; simp
    cases b with
    | nil =>
        have ht : (s.lst d).tail = some x := by rw [hL.tail]; simp
        simp only [hh, ht, if_true]
        refine ⟨_, rfl, cut_eff hL hs hn ?_ ?_ ⟨by simp, by simp, by simp [hitems, sub64_one]⟩ (by simp), ?_, ?_⟩
        · intro y hy; simp [el_setTag, hy]
        · simp [el_setTag]
        · simpa [el_setTag] using hx
        · simpa [el_setTag] using hp
    | cons h b =>
        have ht : ¬ (s.lst d).tail = some x := by rw [hL.tail]; exact last_ne (by simp) hn
        have hhx : h ≠ x := by rintro rfl; simp at hxb
        simp only [List.head?_cons] at hx
        simp only [hh, ht, if_true, if_false, hx]
        refine ⟨_, rfl, cut_eff hL hs hn ?_ ?_ ⟨by simp, ?_, by simp [hitems, sub64_one]⟩ (by simp), ?_, ?_⟩
        · intro y hy
          by_cases hyh : y = h
          · subst hyh; simp [el_setTag, el_setNext, el_setPrev, hy]
          · simp [el_setTag, el_setNext, el_setPrev, hy, hyh, Ne.symm hyh]
        · simp [el_setTag, el_setNext]
        · simp [hL.tail]
        · simp [el_setNext]
        · simpa [el_setTag, el_setNext, el_setPrev, Ne.symm hhx] using hp
  · have hh : ¬ (s.lst d).head = some x := by rw [hL.head]; exact head_ne (by simp) hn
    have hpl : (a ++ [p]).getLast? = some p := by simp
    rw [hpl] at hp
    have hpx : p ≠ x := by rintro rfl; simp at hxa
    cases b with
    | nil =>
        have ht : (s.lst d).tail = some x := by rw [hL.tail]; simp
        simp only [hh, ht, if_true, if_false, hp]
        refine ⟨_, rfl, cut_eff hL hs hn ?_ ?_ ⟨?_, by simp, by simp [hitems, sub64_one]⟩ (by simp), ?_, ?_⟩
        · intro y hy
          by_cases hyp : y = p
          · subst hyp; simp [el_setTag, el_setNext, el_setPrev, hy]
          · simp [el_setTag, el_setNext, el_setPrev, hy, hyp, Ne.symm hyp]
        · simp [el_setTag, el_setPrev]
        · simp [hL.head]
        · simpa [el_setTag, el_setNext, el_setPrev, Ne.symm hpx] using hx
        · simp [el_setPrev]
    | cons h b =>
        have ht : ¬ (s.lst d).tail = some x := by rw [hL.tail]; exact last_ne (by simp) hn
        have hhx : h ≠ x := by rintro rfl; simp at hxb
        have hph : p ≠ h := by rintro rfl; exact hdisj p (by simp) (by simp)
        simp only [List.head?_cons] at hx
        simp only [hh, ht, if_false, hx, hp]
        refine ⟨_, rfl, cut_eff hL hs hn ?_ ?_ ⟨?_, ?_, by simp [hitems, sub64_one]⟩ (by simp), ?_, ?_⟩
        · intro y hy
          by_cases hyp : y = p
          · subst hyp; simp [el_setTag, el_setNext, el_setPrev, hy, hph, Ne.symm hph]
          · by_cases hyh : y = h
            · subst hyh; simp [el_setTag, el_setNext, el_setPrev, hy, hyp, Ne.symm hyp]
            · simp [el_setTag, el_setNext, el_setPrev, hy, hyp, Ne.symm hyp, hyh, Ne.symm hyh]
        · simp [el_setTag, el_setPrev, el_setNext]
        · simp [hL.head]
        · simp [hL.tail]
        · simp [el_setNext, el_setPrev]
        · simp [el_setPrev]

theorem unlink_eff {s : LruS} {d : Bool} {a b : List Id} {x : Id}
    (hL : Lst (s.lst d) (a ++ x :: b)) (hs : Seg s.el none (a ++ x :: b) none)
    (hn : (a ++ x :: b).Nodup) :
    ∃ s', s.unlink d x = some s' ∧ Eff s s' d (a ++ x :: b) (a ++ b) x (s.el x).tag ∧
      (s'.el x).next = none := by
  obtain ⟨hxa, hxb, hab, hdisj⟩ := nodup_mid hn
  obtain ⟨hp, hx⟩ := seg_at hs
  have hitems : (s.lst d).items = (a ++ b).length + 1 := by rw [hL.items]; simp; omega
  unfold unlink
  rcases concat_cases a with rfl | ⟨a, p, rfl⟩
  · have hh : (s.lst d).head = some x := by rw [hL.head]; simp
    cases b with
    | nil =>
        have ht : (s.lst d).tail = some x := by rw [hL.tail]; simp
        simp only [hh, ht, if_true]
        refine ⟨_, rfl, cut_eff hL hs hn ?_ ?_ ⟨by simp, by simp, by simp⟩ (by simp), ?_⟩
        · intro y hy; simp
        · simp
        · simpa using hx
    | cons h b =>
        have ht : ¬ (s.lst d).tail = some x := by rw [hL.tail]; exact last_ne (by simp) hn
        have hhx : h ≠ x := by rintro rfl; simp at hxb
        simp only [List.head?_cons] at hx
        simp only [hh, ht, if_true, if_false, hx]
        refine ⟨_, rfl, cut_eff hL hs hn ?_ ?_ ⟨by simp, ?_, by simp [hitems, sub64_one]⟩ (by simp), ?_⟩
        · intro y hy
          by_cases hyh : y = h
          · subst hyh; simp [el_setNext, el_setPrev, hy]
          · simp [el_setNext, el_setPrev, hy, hyh, Ne.symm hyh]
        · simp [el_setNext, el_setPrev, Ne.symm hhx]
        · simp [hL.tail]
        · simp [el_setNext]
  · have hh : ¬ (s.lst d).head = some x := by rw [hL.head]; exact head_ne (by simp) hn
    have hpl : (a ++ [p]).getLast? = some p := by simp
    rw [hpl] at hp
    have hpx : p ≠ x := by rintro rfl; simp at hxa
    cases b with
    | nil =>
        have ht : (s.lst d).tail = some x := by rw [hL.tail]; simp
        simp only [hh, ht, if_true, if_false, hp]
        refine ⟨_, rfl, cut_eff hL hs hn ?_ ?_ ⟨?_, by simp, by simp [hitems, sub64_one]⟩ (by simp), ?_⟩
        · intro y hy
          by_cases hyp : y = p
          · subst hyp; simp [el_setNext, hy]
          · simp [el_setNext, hy, hyp, Ne.symm hyp]
        · simp [el_setNext, Ne.symm hpx]
        · simp [hL.head]
        · simpa [el_setNext, Ne.symm hpx] using hx
    | cons h b =>
        have ht : ¬ (s.lst d).tail = some x := by rw [hL.tail]; exact last_ne (by simp) hn
        have hhx : h ≠ x := by rintro rfl; simp at hxb
        have hph : p ≠ h := by rintro rfl; exact hdisj p (by simp) (by simp)
        simp only [List.head?_cons] at hx
        simp only [hh, ht, if_false, hx, hp]
        refine ⟨_, rfl, cut_eff hL hs hn ?_ ?_ ⟨?_, ?_, by simp [hitems, sub64_one]⟩ (by simp), ?_⟩
        · intro y hy
          by_cases hyp : y = p
          · subst hyp; simp [el_setNext, el_setPrev, hy, hph, Ne.symm hph]
          · by_cases hyh : y = h
            · subst hyh; simp [el_setNext, el_setPrev, hy, hyp, Ne.symm hyp]
            · simp [el_setNext, el_setPrev, hy, hyp, Ne.symm hyp, hyh, Ne.symm hyh]
        · simp [el_setNext, el_setPrev, Ne.symm hpx, Ne.symm hhx]
        · simp [hL.head]
        · simp [hL.tail]
        · simp [el_setNext]

/-- Well-formed cache lists: `l false` is the clean list, `l true` the dirty list, least recently
used first. -/
structure WF (s : LruS) (l : Bool → List Id) : Prop where
  nodup : ∀ d, (l d).Nodup
  disj : ∀ x, x ∈ l false → x ∉ l true
  lst : ∀ d, Lst (s.lst d) (l d)
  seg : ∀ d, Seg s.el none (l d) none
  tag : ∀ d x, (s.el x).tag = tagOf d ↔ x ∈ l d
  free : ∀ x, (s.el x).tag = .noLRU → (s.el x).next = none ∧ (s.el x).prev = none

theorem WF.disj' {s : LruS} {l} (h : WF s l) {d : Bool} {x : Id} (hx : x ∈ l d) : x ∉ l (!d) := by
  cases d
  · exact h.disj x hx
  · exact fun h' => h.disj x h' hx

theorem tagOf_inj {d e : Bool} (h : tagOf d = tagOf e) : d = e := by
  cases d <;> cases e <;> simp_all [tagOf]

theorem tagOf_ne (d : Bool) : tagOf d ≠ .noLRU := by cases d <;> simp [tagOf]

theorem tag_cases (t : Tag) : t = .noLRU ∨ ∃ d, t = tagOf d := by
  cases t
  · exact .inl rfl
  · exact .inr ⟨false, rfl⟩
  · exact .inr ⟨true, rfl⟩

theorem erase_mid {a b : List Id} {x : Id} (h : x ∉ a) : (a ++ x :: b).erase x = a ++ b := by
  rw [List.erase_append_right _ h, List.erase_cons_head]

theorem bool_cases (d e : Bool) : e = d ∨ e = !d := by cases d <;> cases e <;> simp

/-- From the effect on one list to the whole. -/
theorem Eff.wf {s s' : LruS} {l : Bool → List Id} {d : Bool} {l' : List Id} {x : Id} {t : Tag}
    (h : WF s l) (e : Eff s s' d (l d) l' x t) (hx : x ∉ l (!d)) (hn : l'.Nodup)
    (hm : ∀ y, y ≠ x → (y ∈ l' ↔ y ∈ l d)) (ht : (t = tagOf d ∧ x ∈ l') ∨
      (t = .noLRU ∧ x ∉ l' ∧ (s'.el x).next = none ∧ (s'.el x).prev = none)) :
    WF s' (fun e => if e = d then l' else l e) := by
  have hxd : t ≠ tagOf (!d) := by
    rcases ht with ⟨rfl, _⟩ | ⟨rfl, _⟩ <;> cases d <;> simp [tagOf]
  have hmem : ∀ y, y ∈ l (!d) → y ≠ x ∧ y ∉ l d := by
    intro y hy
    refine ⟨by rintro rfl; exact hx hy, fun hyd => h.disj' hyd hy⟩
  refine ⟨?_, ?_, ?_, ?_, ?_, ?_⟩
  · intro e
    by_cases he : e = d
    · simp [he, hn]
    · simp only [he, if_false]; exact h.nodup e
  · have key : ∀ y, y ∈ l' → y ∉ l (!d) := by
      intro y hy hy'
      obtain ⟨h1, h2⟩ := hmem y hy'
      exact h2 ((hm y h1).1 hy)
    intro y hy hy'
    cases d
    · simp at hy hy'; exact key y hy hy'
    · simp at hy hy'; exact key y hy' hy
  · intro e'
    rcases bool_cases d e' with rfl | rfl
    · simpa using e.lst
    · simpa [e.other] using h.lst (!d)
  · intro e'
    rcases bool_cases d e' with rfl | rfl
    · simpa using e.seg
    · simp only [Bool.not_eq_eq_eq_not, Bool.eq_not_self, if_false]
      apply seg_congr _ (h.seg (!d))
      intro y hy
      obtain ⟨h1, h2⟩ := hmem y hy
      rw [e.frame y h1 h2]; simp
  · intro e' y
    by_cases hyx : y = x
    · subst hyx
      rw [e.tag]
      rcases bool_cases d e' with rfl | rfl
      · simp only [if_true]
        rcases ht with ⟨rfl, hh⟩ | ⟨rfl, hh, _⟩
        · simp [hh]
        · simp [hh, Ne.symm (tagOf_ne _)]
      · simp [hx, hxd]
    · rw [e.tags y hyx, h.tag e' y]
      by_cases he : e' = d
      · subst he; simp [hm y hyx]
      · simp [he]
  · intro y hy
    by_cases hyx : y = x
    · subst hyx
      rw [e.tag] at hy
      rcases ht with ⟨rfl, hh⟩ | ⟨rfl, _, h1, h2⟩
      · exact absurd hy (tagOf_ne d)
      · exact ⟨h1, h2⟩
    · have hyt := hy
      rw [e.tags y hyx] at hyt
      have hyl : y ∉ l d := by
        intro hh
        rw [← h.tag d y, hyt] at hh
        exact tagOf_ne d hh.symm
      rw [e.frame y hyx hyl]
      exact h.free y hyt

theorem WF.congr {s : LruS} {l l' : Bool → List Id} (h : WF s l) (e : ∀ d, l' d = l d) : WF s l' := by
  have : l' = l := funext e
  rw [this]; exact h

/-- Moving to the MRU end. -/
theorem move_spec {s : LruS} {l} (h : WF s l) {d : Bool} {x : Id} (hx : x ∈ l d) :
    ∃ s', s.moveToTail d x = some s' ∧
      WF s' (fun e => if e = d then (l d).erase x ++ [x] else l e) ∧
      ∀ y, (s'.el y).tag = (s.el y).tag := by
  obtain ⟨a, b, hab⟩ := List.append_of_mem hx
  have hL := h.lst d; have hs := h.seg d; have hn := h.nodup d
  rw [hab] at hL hs hn
  obtain ⟨s', h1, e⟩ := moveToTail_eff hL hs hn
  obtain ⟨hxa, hxb, hnab, _⟩ := nodup_mid hn
  have hne : x ∉ a ++ b := by simp [hxa, hxb]
  refine ⟨s', h1, ?_, ?_⟩
  · rw [hab, erase_mid hxa]
    rw [← hab] at e
    refine e.wf h (h.disj' hx) (nodup_snoc hnab hne) ?_ (.inl ⟨(h.tag d x).2 hx, by simp⟩)
    intro y hy; rw [hab]; simp [hy]
  · intro y
    by_cases hy : y = x
    · subst hy; exact e.tag
    · exact e.tags y hy

/-- `markNodeUsed` -/
theorem used_spec {s : LruS} {l} (h : WF s l) {x : Id} (hx : (s.el x).tag ≠ .noLRU) :
    ∃ s', s.used x = some s' ∧
      WF s' (fun e => if x ∈ l e then (l e).erase x ++ [x] else l e) ∧
      ∀ y, (s'.el y).tag = (s.el y).tag := by
  rcases tag_cases (s.el x).tag with h0 | ⟨d, hd⟩
  · exact absurd h0 hx
  · have hxd := (h.tag d x).1 hd
    obtain ⟨s', h1, h2, h3⟩ := move_spec h hxd
    refine ⟨s', ?_, h2.congr ?_, h3⟩
    · unfold used
      rw [hd]
      cases d <;> exact h1
    · intro e
      rcases bool_cases d e with rfl | rfl
      · simp [hxd]
      · simp [h.disj' hxd]

/-- `markNodeClean`, `markNodeDirty` -/
theorem place_spec {s : LruS} {l} (h : WF s l) (d : Bool) (x : Id) :
    ∃ s', s.place d x = some s' ∧
      WF s' (fun e => if e = d then (l d).erase x ++ [x] else (l e).erase x) ∧
      (∀ y, y ≠ x → (s'.el y).tag = (s.el y).tag) ∧ (s'.el x).tag = tagOf d := by
  unfold place
  rcases tag_cases (s.el x).tag with h0 | ⟨d', hd⟩
  · simp only [h0, if_true]
    have hno : ∀ e, x ∉ l e := by
      intro e he
      have := (h.tag e x).2 he
      rw [h0] at this
      exact tagOf_ne e this.symm
    obtain ⟨s', h1, e⟩ := placeFresh_eff (h.lst d) (h.seg d) (h.nodup d) (hno d) (h.free x h0).1 (h.free x h0).2
    refine ⟨s', h1, ?_, e.tags, e.tag⟩
    refine (e.wf h (hno _) (nodup_snoc (h.nodup d) (hno d)) ?_ (.inl ⟨rfl, by simp⟩)).congr ?_
    · intro y hy; simp [hy]
    · intro e; simp [List.erase_of_not_mem (hno _)]
  · have hxd := (h.tag d' x).1 hd
    rw [hd]
    simp only [tagOf_ne, if_false]
    rcases bool_cases d d' with rfl | rfl
    · simp only [if_true]
      obtain ⟨s', h1, h2, h3⟩ := move_spec h hxd
      refine ⟨s', h1, h2.congr ?_, fun y _ => h3 y, (h3 x).trans hd⟩
      intro e
      rcases bool_cases d' e with rfl | rfl
      · simp
      · simp [List.erase_of_not_mem (h.disj' hxd)]
    · have hne : ¬ tagOf (!d) = tagOf d := fun hh => by simpa using tagOf_inj hh
      simp only [hne, if_false]
      obtain ⟨a, b, hab⟩ := List.append_of_mem hxd
      have hL := h.lst (!d); have hs := h.seg (!d); have hn := h.nodup (!d)
      rw [hab] at hL hs hn
      obtain ⟨s1, h1, e1, hnx⟩ := unlink_eff hL hs hn
      rw [h1]
      obtain ⟨hxa, hxb, hnab, _⟩ := nodup_mid hn
      have hxl : x ∉ l d := by simpa using h.disj' hxd
      have hdl : ∀ y ∈ l d, y ≠ x ∧ y ∉ a ++ x :: b := by
        intro y hy
        refine ⟨by rintro rfl; exact hxl hy, ?_⟩
        rw [← hab]; exact h.disj' hy
      have hL1 : Lst (s1.lst d) (l d) := by
        have := e1.other; simp only [Bool.not_not] at this
        rw [this]; exact h.lst d
      have hs1 : Seg s1.el none (l d) none := by
        apply seg_congr _ (h.seg d)
        intro y hy
        rw [e1.frame y (hdl y hy).1 (hdl y hy).2]; simp
      obtain ⟨s2, h2, e2⟩ := append_eff hL1 hs1 (h.nodup d) hxl hnx
      refine ⟨s2, h2, ?_, fun y hy => (e2.tags y hy).trans (e1.tags y hy), e2.tag⟩
      have hxab : x ∉ a ++ b := by simp [hxa, hxb]
      have her : (l (!d)).erase x = a ++ b := by rw [hab, erase_mid hxa]
      have herd : (l d).erase x = l d := List.erase_of_not_mem hxl
      have habl : ∀ y, y ∈ a ++ b → y ∉ l d := by
        intro y hy hy'
        exact (hdl y hy').2 (by
          rcases List.mem_append.1 hy with h | h
          · simp [h]
          · simp [h])
      refine ⟨?_, ?_, ?_, ?_, ?_, ?_⟩
      · intro e
        rcases bool_cases d e with rfl | rfl
        · simp only [if_true, herd]; exact nodup_snoc (h.nodup e) hxl
        · simp [her, hnab]
      · have key : ∀ y, y ∈ a ++ b → y ∉ l d ++ [x] := by
          intro y hy hy'
          simp only [List.mem_append, List.mem_singleton] at hy'
          rcases hy' with hy' | rfl
          · exact habl y hy hy'
          · exact hxab hy
        intro y hy hy'
        cases d
        · simp only [Bool.not_false] at her
          simp [her, herd] at hy hy'
          exact key y (by simpa using hy') (by simpa using hy)
        · simp only [Bool.not_true] at her
          simp [her, herd] at hy hy'
          exact key y (by simpa using hy) (by simpa using hy')
      · intro e
        rcases bool_cases d e with rfl | rfl
        · simpa [herd] using e2.lst
        · simpa [her, e2.other] using e1.lst
      · intro e
        rcases bool_cases d e with rfl | rfl
        · simpa [herd] using e2.seg
        · simp only [Bool.not_eq_eq_eq_not, Bool.eq_not_self, if_false, her]
          apply seg_congr _ e1.seg
          intro y hy
          rw [e2.frame y (by rintro rfl; exact hxab hy) (habl y hy)]; simp
      · intro e y
        by_cases hyx : y = x
        · subst hyx
          rw [e2.tag]
          rcases bool_cases d e with rfl | rfl
          · simp
          · simp [her, hxa, hxb, Ne.symm hne]
        · rw [e2.tags y hyx, e1.tags y hyx, h.tag e y]
          rcases bool_cases d e with rfl | rfl
          · simp [herd, hyx]
          · simp [her, hab, hyx]
      · intro y hy
        by_cases hyx : y = x
        · subst hyx; rw [e2.tag] at hy; exact absurd hy (tagOf_ne d)
        · rw [e2.tags y hyx, e1.tags y hyx] at hy
          have hno : ∀ e, y ∉ l e := by
            intro e he
            have := (h.tag e y).2 he
            rw [hy] at this
            exact tagOf_ne e this.symm
          rw [e2.frame y hyx (hno d), e1.frame y hyx (by rw [← hab]; exact hno _)]
          exact h.free y hy

/-- `markNodeEvicted`, `markNodeToBeDiscarded` -/
theorem drop_spec {s : LruS} {l} (h : WF s l) {x : Id} (hx : (s.el x).tag ≠ .noLRU) :
    ∃ s', s.drop x = some s' ∧ WF s' (fun e => (l e).erase x) ∧
      (∀ y, y ≠ x → (s'.el y).tag = (s.el y).tag) ∧ (s'.el x).tag = .noLRU := by
  rcases tag_cases (s.el x).tag with h0 | ⟨d, hd⟩
  · exact absurd h0 hx
  · have hxd := (h.tag d x).1 hd
    obtain ⟨a, b, hab⟩ := List.append_of_mem hxd
    have hL := h.lst d; have hs := h.seg d; have hn := h.nodup d
    rw [hab] at hL hs hn
    obtain ⟨s', h1, e, hx1, hx2⟩ := remove_eff hL hs hn
    obtain ⟨hxa, hxb, hnab, _⟩ := nodup_mid hn
    have hne : x ∉ a ++ b := by simp [hxa, hxb]
    refine ⟨s', ?_, ?_, e.tags, e.tag⟩
    · unfold drop
      rw [hd]
      cases d <;> exact h1
    · rw [← hab] at e
      refine (e.wf h (h.disj' hxd) hnab ?_ (.inr ⟨rfl, hne, hx1, hx2⟩)).congr ?_
      · intro y hy; rw [hab]; simp [hy]
      · intro e
        rcases bool_cases d e with rfl | rfl
        · simp [hab, erase_mid hxa]
        · simp [List.erase_of_not_mem (h.disj' hxd)]

/-- `initNodeAsEvicted` of a node on no list. -/
theorem init_spec {s : LruS} {l} (h : WF s l) {x : Id} (hx : (s.el x).tag = .noLRU) :
    s.init x = s := by
  obtain ⟨h1, h2⟩ := h.free x hx
  unfold init
  have : upd s.el x { tag := .noLRU, next := none, prev := none } = s.el := by
    funext y
    by_cases hy : y = x
    · subst hy
      rw [upd_same]
      rcases hs : s.el y with ⟨t, n, p⟩
      rw [hs] at hx h1 h2
      simp_all
    · rw [upd_ne _ _ hy]
  rw [this]

theorem WF.empty : WF LruS.empty (fun _ => []) := by
  refine ⟨fun _ => by simp, fun x h => by simp at h, ?_, fun _ => trivial, ?_, fun _ _ => ⟨rfl, rfl⟩⟩
  · intro d; cases d <;> exact ⟨rfl, rfl, rfl⟩
  · intro d x; cases d <;> simp [LruS.empty, tagOf]

end LruS
end SM.BT

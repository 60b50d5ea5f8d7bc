import Verif.LLRB.Model
import Verif.Order

/-! Invariants of the LLRB model and the lemmas about its rotations. -/

namespace SM.LLRB.Tree

variable {K V : Type}

/-- In-order contents. -/
def toList : Tree K V → List (K × V)
  | nil => []
  | node k v l r _ _ => l.toList ++ (k, v) :: r.toList

/-- Weighted size of a list. -/
def wsum (f : K → Int) : List (K × V) → Int
  | [] => 0
  | p :: l => f p.1 + wsum f l

@[simp] theorem wsum_nil (f : K → Int) : wsum f ([] : List (K × V)) = 0 := rfl
@[simp] theorem wsum_cons (f : K → Int) (p : K × V) (l) : wsum f (p :: l) = f p.1 + wsum f l := rfl
@[simp] theorem wsum_append (f : K → Int) (l₁ l₂ : List (K × V)) :
    wsum f (l₁ ++ l₂) = wsum f l₁ + wsum f l₂ := by
  induction l₁ with
  | nil => simp
  | cons p l ih => simp [ih]; omega

theorem wsum_congr {f g : K → Int} {l : List (K × V)} (h : ∀ p ∈ l, f p.1 = g p.1) :
    wsum f l = wsum g l := by
  induction l with
  | nil => rfl
  | cons p l ih =>
      simp only [wsum_cons, h p (List.mem_cons_self), ih (fun q hq => h q (List.mem_cons_of_mem _ hq))]

theorem wsum_one (l : List (K × V)) : wsum (fun _ => 1) l = l.length := by
  induction l with
  | nil => rfl
  | cons p l ih => simp [ih]; omega

/-- If `k` is absent, below and above make up the whole list. -/
theorem below_above_wsum {cmp : Compare K} {Valid : K → Prop} (H : Lawful cmp Valid) {k : K}
    (hk : Valid k) {l : List (K × V)} (hv : AllValid Valid l) (_hs : Spec.Sorted cmp l)
    (hh : ∀ p ∈ l, eqb cmp k p.1 = false) (f : K → Int) :
    wsum f (Spec.below cmp k l) + wsum f (Spec.above cmp k l) = wsum f l := by
  clear _hs
  induction l with
  | nil => rfl
  | cons p l ih =>
    simp only [AllValid_cons] at hv
    have ih := ih hv.2 (fun q hq => hh q (List.mem_cons_of_mem _ hq))
    obtain ⟨c, -, h | h | h⟩ := H.cases_cmp hk hv.1
    · rw [below_cons_of_not h.2.2.1, above_cons_of h.2.1]; simp; omega
    · rw [below_cons_of h.2.2.1, above_cons_of_not h.2.1]; simp; omega
    · have := hh p List.mem_cons_self; simp_all

/-- Every `len` field is the weighted number of nodes below it. -/
def LenOK (f : K → Int) : Tree K V → Prop
  | nil => True
  | node k _ l r _ n =>
      LenOK f l ∧ LenOK f r ∧ n = wsum f l.toList + f k + wsum f r.toList

/-- 2-3 red-black invariant with black height. -/
def Bal : Tree K V → Nat → Prop
  | nil, n => n = 0
  | node _ _ l r true _, n => Bal l n ∧ Bal r n ∧ l.isRed = false ∧ r.isRed = false
  | node _ _ l r false _, n + 1 => Bal l n ∧ Bal r n ∧ r.isRed = false
  | node _ _ _ _ false _, 0 => False

@[simp] theorem toList_nil : (nil : Tree K V).toList = [] := rfl
@[simp] theorem toList_node (k : K) (v : V) (l r c n) :
    (node k v l r c n).toList = l.toList ++ (k, v) :: r.toList := rfl

theorem LenOK.len_eq {f : K → Int} {t : Tree K V} (h : LenOK f t) : t.len = wsum f t.toList := by
  cases t with
  | nil => rfl
  | node k v l r c n => simp only [LenOK] at h; simp [len, h.2.2]; omega

theorem LenOK.congr {f g : K → Int} {t : Tree K V} (h : LenOK f t)
    (hfg : ∀ p ∈ t.toList, f p.1 = g p.1) : LenOK g t := by
  induction t with
  | nil => trivial
  | node k v l r c n ihl ihr =>
      simp only [LenOK, toList_node, List.mem_append, List.mem_cons] at *
      refine ⟨ihl h.1 fun p hp => hfg p (Or.inl hp),
        ihr h.2.1 fun p hp => hfg p (Or.inr (Or.inr hp)), ?_⟩
      rw [h.2.2, wsum_congr (fun p hp => hfg p (Or.inl hp)),
        wsum_congr (l := r.toList) (fun p hp => hfg p (Or.inr (Or.inr hp))),
        hfg (k, v) (Or.inr (Or.inl rfl))]

theorem size_eq (t : Tree K V) : t.size = t.toList.length := by
  induction t with
  | nil => rfl
  | node k v l r c n ihl ihr => simp [size, ihl, ihr]; omega

/-! ### Rotations keep contents and sizes -/

/-- Same contents and (for every weighting) sizes still right. -/
def Keeps (t t' : Tree K V) : Prop :=
  t'.toList = t.toList ∧ ∀ f, LenOK f t → LenOK f t'

theorem Keeps.refl (t : Tree K V) : Keeps t t := ⟨rfl, fun _ h => h⟩
theorem Keeps.trans {a b c : Tree K V} (h1 : Keeps a b) (h2 : Keeps b c) : Keeps a c :=
  ⟨h2.1.trans h1.1, fun f h => h2.2 f (h1.2 f h)⟩

theorem Keeps.right {k : K} {v : V} {l r r' c n} (h : Keeps r r') :
    Keeps (node k v l r c n) (node k v l r' c n) :=
  ⟨by simp [h.1], fun f hf => by
    simp only [LenOK] at *
    exact ⟨hf.1, h.2 f hf.2.1, by rw [h.1]; exact hf.2.2⟩⟩

theorem toggle_keeps {t t' : Tree K V} (h : t.toggle? = some t') : Keeps t t' := by
  cases t with
  | nil => simp [toggle?] at h
  | node k v l r c n =>
      simp only [toggle?, Option.some.injEq] at h
      subst h
      exact ⟨rfl, fun f hf => hf⟩

theorem colorFlip_keeps {t t' : Tree K V} (h : colorFlip t = some t') : Keeps t t' := by
  cases t with
  | nil => simp [colorFlip] at h
  | node k v l r c n =>
      simp only [colorFlip, Option.bind_eq_bind, Option.bind_eq_some_iff, Option.pure_def] at h
      obtain ⟨l', hl, r', hr, h⟩ := h
      simp only [Option.some.injEq] at h
      subst h
      have kl := toggle_keeps hl
      have kr := toggle_keeps hr
      refine ⟨by simp [kl.1, kr.1], fun f hf => ?_⟩
      simp only [LenOK] at *
      exact ⟨kl.2 f hf.1, kr.2 f hf.2.1, by rw [kl.1, kr.1]; exact hf.2.2⟩

theorem rotateLeft_keeps {t t' : Tree K V} (h : rotateLeft t = some t') : Keeps t t' := by
  unfold rotateLeft at h
  split at h
  · simp only [Option.some.injEq] at h
    subst h
    refine ⟨by simp, fun f hf => ?_⟩
    simp only [LenOK, toList_node, wsum_append, wsum_cons] at *
    rw [hf.2.1.1.len_eq]
    obtain ⟨h1, ⟨h2, h3, h4⟩, h5⟩ := hf
    refine ⟨⟨h1, h2, by omega⟩, h3, by omega⟩
  · simp at h

theorem rotateRight_keeps {t t' : Tree K V} (h : rotateRight t = some t') : Keeps t t' := by
  unfold rotateRight at h
  split at h
  · simp only [Option.some.injEq] at h
    subst h
    refine ⟨by simp, fun f hf => ?_⟩
    simp only [LenOK, toList_node, wsum_append, wsum_cons] at *
    rw [hf.1.2.1.len_eq]
    obtain ⟨⟨h1, h2, h3⟩, h4, h5⟩ := hf
    refine ⟨h1, ⟨h2, h4, by omega⟩, by omega⟩
  · simp at h

theorem moveRedLeft_keeps {t t' : Tree K V} (h : moveRedLeft t = some t') : Keeps t t' := by
  simp only [moveRedLeft, Option.bind_eq_bind, Option.bind_eq_some_iff, Option.pure_def] at h
  obtain ⟨t1, h1, h⟩ := h
  refine (colorFlip_keeps h1).trans ?_
  cases t1 with
  | nil => simp at h
  | node k v l r c n =>
      simp only [Option.bind_eq_some_iff] at h
      obtain ⟨rl, hrl, h⟩ := h
      split at h
      · simp only [Option.bind_eq_some_iff] at h
        obtain ⟨r', hr', t2, ht2, h⟩ := h
        exact ((rotateRight_keeps hr').right.trans (rotateLeft_keeps ht2)).trans (colorFlip_keeps h)
      · simp only [Option.some.injEq] at h
        subst h; exact Keeps.refl _

theorem moveRedRight_keeps {t t' : Tree K V} (h : moveRedRight t = some t') : Keeps t t' := by
  simp only [moveRedRight, Option.bind_eq_bind, Option.bind_eq_some_iff, Option.pure_def] at h
  obtain ⟨t1, h1, h⟩ := h
  refine (colorFlip_keeps h1).trans ?_
  cases t1 with
  | nil => simp at h
  | node k v l r c n =>
      simp only [Option.bind_eq_some_iff] at h
      obtain ⟨rl, hrl, h⟩ := h
      split at h
      · simp only [Option.bind_eq_some_iff] at h
        obtain ⟨t2, ht2, h⟩ := h
        exact (rotateRight_keeps ht2).trans (colorFlip_keeps h)
      · simp only [Option.some.injEq] at h
        subst h; exact Keeps.refl _

theorem fixUp1_keeps {t t' : Tree K V} (h : fixUp1 t = some t') : Keeps t t' := by
  simp only [fixUp1, Option.bind_eq_bind, Option.bind_eq_some_iff] at h
  obtain ⟨b, _, h⟩ := h
  split at h
  · exact rotateLeft_keeps h
  · simp only [Option.some.injEq] at h; subst h; exact Keeps.refl _

theorem fixUp2_keeps {t t' : Tree K V} (h : fixUp2 t = some t') : Keeps t t' := by
  simp only [fixUp2, Option.bind_eq_bind, Option.bind_eq_some_iff] at h
  obtain ⟨b, _, h⟩ := h
  split at h
  · exact rotateRight_keeps h
  · simp only [Option.some.injEq] at h; subst h; exact Keeps.refl _

theorem fixUp3_keeps {t t' : Tree K V} (h : fixUp3 t = some t') : Keeps t t' := by
  simp only [fixUp3, Option.bind_eq_bind, Option.bind_eq_some_iff] at h
  obtain ⟨b, _, h⟩ := h
  split at h
  · exact colorFlip_keeps h
  · simp only [Option.some.injEq] at h; subst h; exact Keeps.refl _

theorem fixUp_keeps {t t' : Tree K V} (h : fixUp t = some t') : Keeps t t' := by
  simp only [fixUp, Option.bind_eq_bind, Option.bind_eq_some_iff] at h
  obtain ⟨t1, h1, t2, h2, h3⟩ := h
  exact ((fixUp1_keeps h1).trans (fixUp2_keeps h2)).trans (fixUp3_keeps h3)

/-! ### Colours -/

@[simp] theorem isRed_nil : (nil : Tree K V).isRed = false := rfl
@[simp] theorem isRed_node {k : K} {v : V} {l r c n} : (node k v l r c n).isRed = c := rfl


/-- Red node whose left child may be red too. -/
def ARB : Tree K V → Nat → Prop
  | node _ _ l r true _, n => Bal l n ∧ Bal r n ∧ r.isRed = false
  | _, _ => False

theorem Bal.black {k : K} {v : V} {l r len n} (h : Bal (node k v l r false len) n) :
    ∃ m, n = m + 1 ∧ Bal l m ∧ Bal r m ∧ r.isRed = false := by
  cases n with
  | zero => simp [Bal] at h
  | succ m => exact ⟨m, rfl, h⟩

/-- Not red, or red with a black left child. -/
def LeftOK : Tree K V → Bool
  | nil => true
  | node _ _ ll _ c _ => !(c && ll.isRed)

theorem fixUp_id {k : K} {v : V} {l r : Tree K V} {c n} (hl : LeftOK l = true)
    (hr : r.isRed = false) : fixUp (node k v l r c n) = some (node k v l r c n) := by
  cases l with
  | nil => simp [fixUp, fixUp1, fixUp2, fixUp3, redRight?, hr, redRedLeft?, redBoth?]
  | node lk lv ll lr lc ln =>
    simp only [LeftOK, Bool.not_eq_true'] at hl
    simp [fixUp, fixUp1, fixUp2, fixUp3, redRight?, hr, redRedLeft?, redBoth?, hl]

theorem fixUp_redred {k : K} {v : V} {lk : K} {lv : V} {ll lr r : Tree K V} {c ln n}
    (hll : ll.isRed = true) (hr : r.isRed = false) :
    ∃ n1 n2, fixUp (node k v (node lk lv ll lr true ln) r c n) =
      some (node lk lv ll.blacken (node k v lr r false n1) (!c) n2) := by
  cases ll with
  | nil => simp at hll
  | node a b e f g h =>
    simp only [isRed_node] at hll; subst hll
    simp [fixUp, fixUp1, fixUp2, fixUp3, redRight?, hr, redRedLeft?, redBoth?, rotateRight,
      colorFlip, toggle?, blacken]

theorem fixUp_right {k : K} {v : V} {rk : K} {rv : V} {l rl rr : Tree K V} {c rn n}
    (hl : l.isRed = false) (hr : rr.isRed = false) :
    ∃ n1 n2, fixUp (node k v l (node rk rv rl rr true rn) c n) =
      some (node rk rv (node k v l rl true n1) rr c n2) := by
  simp [fixUp, fixUp1, fixUp2, fixUp3, redRight?, redRedLeft?, redBoth?, rotateLeft, hl, hr]

theorem fixUp_both {k : K} {v : V} {lk rk : K} {lv rv : V} {ll lr rl rr : Tree K V} {c ln rn n} :
    ∃ n1 n2, fixUp (node k v (node lk lv ll lr true ln) (node rk rv rl rr true rn) c n) =
      some (node k v (node lk lv ll lr false ln) (node rk rv rl rr false n1) (!c) n2) := by
  simp [fixUp, fixUp1, fixUp2, fixUp3, redRight?, redRedLeft?, redBoth?, rotateLeft, rotateRight,
    colorFlip, toggle?]

theorem Bal.leftOK {t : Tree K V} {n} (h : Bal t n) : LeftOK t = true := by
  cases t with
  | nil => rfl
  | node k v l r c len => cases c <;> simp_all [Bal, LeftOK]

theorem Bal.red {t : Tree K V} {n} (h : Bal t n) (hr : t.isRed = true) :
    ∃ k v l r len, t = node k v l r true len ∧ Bal l n ∧ Bal r n ∧ l.isRed = false ∧
      r.isRed = false := by
  cases t with
  | nil => simp [isRed] at hr
  | node k v l r c len =>
    simp only [isRed] at hr; subst hr
    exact ⟨k, v, l, r, len, rfl, h⟩

theorem bal_red_iff {k : K} {v : V} {l r : Tree K V} {len n} :
    Bal (node k v l r true len) n ↔
      Bal l n ∧ Bal r n ∧ l.isRed = false ∧ r.isRed = false := Iff.rfl

theorem bal_black_iff {k : K} {v : V} {l r : Tree K V} {len n} :
    Bal (node k v l r false len) (n + 1) ↔ Bal l n ∧ Bal r n ∧ r.isRed = false := Iff.rfl

theorem Bal.blacken {t : Tree K V} {n} (h : Bal t n) (hr : t.isRed = true) :
    Bal t.blacken (n + 1) := by
  obtain ⟨k, v, l, r, len, rfl, h1, h2, h3, h4⟩ := h.red hr
  exact ⟨h1, h2, h4⟩

theorem ARB.bal_or {t : Tree K V} {n} (h : ARB t n) :
    Bal t n ∨ ∃ k v l r len, t = node k v l r true len ∧ Bal l n ∧ Bal r n ∧ l.isRed = true ∧
      r.isRed = false := by
  cases t with
  | nil => simp [ARB] at h
  | node k v l r c len =>
    cases c with
    | false => simp [ARB] at h
    | true =>
      simp only [ARB] at h
      cases hl : l.isRed with
      | false => exact .inl ⟨h.1, h.2.1, hl, h.2.2⟩
      | true => exact .inr ⟨k, v, l, r, len, rfl, h.1, h.2.1, hl, h.2.2⟩

/-- Above a changed left child, black node. -/
theorem fixUp_black_left {k : K} {v : V} {l r : Tree K V} {len : Int} {m : Nat}
    (hl : Bal l m ∨ ARB l m) (hr : Bal r m) (hr' : r.isRed = false) :
    ∃ t', fixUp (node k v l r false len) = some t' ∧ Bal t' (m + 1) ∧
      (Bal l m → t'.isRed = false) := by
  have hl : Bal l m ∨ ∃ k v l' r len, l = node k v l' r true len ∧ Bal l' m ∧ Bal r m ∧
      l'.isRed = true ∧ r.isRed = false := by
    rcases hl with h | h
    · exact .inl h
    · exact h.bal_or
  rcases hl with hl | ⟨lk, lv, ll, lr, ln, rfl, h1, h2, h3, h4⟩
  · exact ⟨_, fixUp_id hl.leftOK hr', ⟨hl, hr, hr'⟩, fun _ => rfl⟩
  · obtain ⟨n1, n2, h⟩ := fixUp_redred (k := k) (v := v) (lk := lk) (lv := lv) (lr := lr)
      (c := false) (ln := ln) (n := len) h3 hr'
    refine ⟨_, h, ⟨h1.blacken h3, ⟨h2, hr, hr'⟩, ?_, rfl⟩, ?_⟩
    · cases ll <;> rfl
    · intro h; simp [Bal, h3] at h

/-- Above a changed right child, black node. -/
theorem fixUp_black_right {k : K} {v : V} {l r : Tree K V} {len : Int} {m : Nat}
    (hl : Bal l m) (hr : Bal r m) :
    ∃ t', fixUp (node k v l r false len) = some t' ∧ Bal t' (m + 1) ∧
      (l.isRed = false ∨ r.isRed = false → t'.isRed = false) := by
  cases hr' : r.isRed with
  | false => exact ⟨_, fixUp_id hl.leftOK hr', ⟨hl, hr, hr'⟩, fun _ => rfl⟩
  | true =>
    obtain ⟨rk, rv, rl, rr, rn, rfl, h1, h2, h3, h4⟩ := hr.red hr'
    cases hl' : l.isRed with
    | false =>
      obtain ⟨n1, n2, h⟩ := fixUp_right (k := k) (v := v) (rk := rk) (rv := rv) (rl := rl)
        (c := false) (rn := rn) (n := len) hl' h4
      exact ⟨_, h, ⟨⟨hl, h1, hl', h3⟩, h2, h4⟩, fun _ => rfl⟩
    | true =>
      obtain ⟨lk, lv, ll, lr, ln, rfl, g1, g2, g3, g4⟩ := hl.red hl'
      obtain ⟨n1, n2, h⟩ := fixUp_both (k := k) (v := v) (rk := rk) (rv := rv) (rl := rl) (rr := rr)
        (lk := lk) (lv := lv) (ll := ll) (lr := lr) (ln := ln) (c := false) (rn := rn) (n := len)
      refine ⟨_, h, ⟨⟨g1, g2, g4⟩, ⟨h1, h2, h4⟩, rfl, rfl⟩, by simp⟩

/-- Above a changed left child, red node. -/
theorem fixUp_red_left {k : K} {v : V} {l r : Tree K V} {len : Int} {m : Nat}
    (hl : Bal l m) (hr : Bal r m) (hr' : r.isRed = false) :
    fixUp (node k v l r true len) = some (node k v l r true len) :=
  fixUp_id hl.leftOK hr'

/-- Above a changed right child, red node. -/
theorem fixUp_red_right {k : K} {v : V} {l r : Tree K V} {len : Int} {m : Nat}
    (hl : Bal l m) (hr : Bal r m) (hl' : l.isRed = false) :
    ∃ t', fixUp (node k v l r true len) = some t' ∧ ARB t' m ∧ (r.isRed = false → Bal t' m) := by
  cases hr' : r.isRed with
  | false => exact ⟨_, fixUp_id hl.leftOK hr', ⟨hl, hr, hr'⟩, fun _ => ⟨hl, hr, hl', hr'⟩⟩
  | true =>
    obtain ⟨rk, rv, rl, rr, rn, rfl, h1, h2, h3, h4⟩ := hr.red hr'
    obtain ⟨n1, n2, h⟩ := fixUp_right (k := k) (v := v) (rk := rk) (rv := rv) (rl := rl)
        (c := true) (rn := rn) (n := len) hl' h4
    exact ⟨_, h, ⟨⟨hl, h1, hl', h3⟩, h2, h4⟩, by simp⟩

end SM.LLRB.Tree

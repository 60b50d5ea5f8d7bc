import Verif.LLRB.Insert

/-! DeleteByKey / DeleteByIndex on the LLRB model. -/

namespace SM.LLRB.Tree

open Spec

variable {K V : Type} {cmp : Compare K} {Valid : K → Prop}

/-- Is the left child red? -/
def LR : Tree K V → Bool
  | nil => false
  | node _ _ l _ _ _ => l.isRed

@[simp] theorem LR_node {k : K} {v : V} {l r c n} : (node k v l r c n).LR = l.isRed := rfl
@[simp] theorem LR_nil : (nil : Tree K V).LR = false := rfl

theorem isBlack_eq (t : Tree K V) : t.isBlack = !t.isRed := by cases t <;> rfl

theorem blackBlack_node {k : K} {v : V} {l r c n} :
    blackBlack? (node k v l r c n) = some (!c && !l.isRed) := by
  cases c <;> simp [blackBlack?, isBlack_eq, left?]

theorem Bal.zero_nil {t : Tree K V} (h : Bal t 0) (hr : t.isRed = false) : t = nil := by
  cases t with
  | nil => rfl
  | node k v l r c n => simp only [isRed_node] at hr; subst hr; simp [Bal] at h

theorem Bal.succ_node {t : Tree K V} {m} (h : Bal t (m + 1)) (hr : t.isRed = false) :
    ∃ k v l r n, t = node k v l r false n ∧ Bal l m ∧ Bal r m ∧ r.isRed = false := by
  cases t with
  | nil => simp [Bal] at h
  | node k v l r c n =>
    simp only [isRed_node] at hr; subst hr
    exact ⟨k, v, l, r, n, rfl, h⟩

/-- How many calls of `delete` or `deleteMin` there may still be: the nodes of a path in a tree of black height `n`, without the black root. -/
def rk (t : Tree K V) (n : Nat) : Nat := 2 * n + if t.isRed then 1 else 0

@[simp] theorem rk_red {k : K} {v : V} {l r n m} : rk (node k v l r true n) m = 2 * m + 1 := rfl
@[simp] theorem rk_black {k : K} {v : V} {l r n m} : rk (node k v l r false n) m = 2 * m := rfl
theorem rk_isRed {t : Tree K V} {m : Nat} (h : t.isRed = true) : rk t m = 2 * m + 1 := by simp [rk, h]
theorem rk_le (t : Tree K V) (m : Nat) : rk t m ≤ 2 * m + 1 := by unfold rk; split <;> omega

/-- Descending to the left during a deletion. -/
theorem prepLeft_spec {k : K} {v : V} {l r : Tree K V} {c len n}
    (hb : Bal (node k v l r c len) n) (hpre : c = true ∨ l.isRed = true) (hl : l ≠ nil) :
    ∃ k1 v1 l1 r1 c1 len1 m, prepLeft (node k v l r c len) = some (node k1 v1 l1 r1 c1 len1) ∧
      Bal l1 m ∧ (l1.isRed = true ∨ l1.LR = true) ∧ (k1, v1) ∈ (k, v) :: r.toList ∧
      rk l1 m < rk (node k v l r c len) n ∧ ∀ k' v' l' len', Bal l' m → (l1.isRed = false → l'.isRed = false) →
        ∃ t', fixUp (node k' v' l' r1 c1 len') = some t' ∧ Bal t' n ∧
          (c = false → t'.isRed = false) := by
  cases l with
  | nil => exact absurd rfl hl
  | node lk lv ll lr lc ln =>
    cases lc with
    | true =>
      cases c with
      | true => simp [Bal] at hb
      | false =>
        obtain ⟨m, rfl, b1, b2, b3⟩ := hb.black
        refine ⟨k, v, _, r, false, len, m, ?_, b1, .inl rfl, by simp, by simp; omega, ?_⟩
        · simp [prepLeft, left?, blackBlack_node]
        · intro k' v' l' len' hl' _
          obtain ⟨t', e1, e2, e3⟩ := fixUp_black_left (k := k') (v := v') (len := len') (.inl hl') b2 b3
          exact ⟨t', e1, e2, fun _ => e3 hl'⟩
    | false =>
      have hc : c = true := by simpa using hpre
      subst hc
      obtain ⟨b1, b2, b3, b4⟩ := hb
      cases hll : ll.isRed with
      | true =>
        refine ⟨k, v, _, r, true, len, n, ?_, b1, .inr (by simp [hll]), by simp, by simp, ?_⟩
        · simp [prepLeft, left?, blackBlack_node, hll]
        · intro k' v' l' len' hl' hbl
          refine ⟨_, fixUp_red_left hl' b2 b4, ⟨hl', b2, hbl rfl, b4⟩, by simp⟩
      | false =>
        obtain ⟨m, rfl, bl1, bl2, bl3⟩ := b1.black
        obtain ⟨rk, rv, rl, rr, rn, rfl, br1, br2, br3⟩ := b2.succ_node b4
        cases hrl : rl.isRed with
        | true =>
          obtain ⟨xk, xv, xa, xb, xn, rfl, bx1, bx2, bx3, bx4⟩ := br1.red hrl
          have hE : ∃ n1 n2 n3, prepLeft (node k v (node lk lv ll lr false ln)
              (node rk rv (node xk xv xa xb true xn) rr false rn) true len) =
              some (node xk xv (node k v (node lk lv ll lr true ln) xa false n1)
                (node rk rv xb rr false n2) true n3) := by
            simp [prepLeft, left?, blackBlack_node, hll, moveRedLeft, colorFlip, toggle?,
              rotateRight, rotateLeft]
          obtain ⟨n1, n2, n3, hE⟩ := hE
          refine ⟨_, _, _, _, _, _, m + 1, hE, ⟨⟨bl1, bl2, hll, bl3⟩, bx1, bx3⟩, .inr rfl, by simp, by simp, ?_⟩
          intro k' v' l' len' hl' hbl
          have hr1 : Bal (node rk rv xb rr false n2) (m + 1) := ⟨bx2, br2, br3⟩
          exact ⟨_, fixUp_red_left hl' hr1 rfl, ⟨hl', hr1, hbl rfl, rfl⟩, by simp⟩
        | false =>
          refine ⟨k, v, node lk lv ll lr true ln, node rk rv rl rr true rn, false, len, m,
            ?_, ⟨bl1, bl2, hll, bl3⟩, .inl rfl, by simp, by simp, ?_⟩
          · simp [prepLeft, left?, blackBlack_node, hll, moveRedLeft, colorFlip, toggle?, hrl]
          · intro k' v' l' len' hl' _
            obtain ⟨t', e1, e2, -⟩ := fixUp_black_right (k := k') (v := v') (len := len') hl'
              (show Bal (node rk rv rl rr true rn) m from ⟨br1, br2, hrl, br3⟩)
            exact ⟨t', e1, e2, by simp⟩

theorem prepLeft_keeps {t t' : Tree K V} (h : prepLeft t = some t') : Keeps t t' := by
  simp only [prepLeft, Option.bind_eq_bind, Option.bind_eq_some_iff] at h
  obtain ⟨l, -, b, -, h⟩ := h
  split at h
  · exact moveRedLeft_keeps h
  · simp only [Option.some.injEq] at h; subst h; exact Keeps.refl _

theorem deleteMin_step {fuel : Nat} {k : K} {v : V} {lk : K} {lv : V} {ll lr r : Tree K V}
    {lc ln c n k1 v1 l1 r1 c1 n1 l' mk mv t'}
    (h1 : prepLeft (node k v (node lk lv ll lr lc ln) r c n) = some (node k1 v1 l1 r1 c1 n1))
    (h2 : deleteMin fuel l1 = some (l', mk, mv))
    (h3 : fixUp (node k1 v1 l' r1 c1 (n1 - 1)) = some t') :
    deleteMin (fuel + 1) (node k v (node lk lv ll lr lc ln) r c n) = some (t', mk, mv) := by
  rw [deleteMin]
  · simp [h1, h2, h3]
  all_goals simp

theorem deleteMin_spec {f : K → Int} : ∀ {fuel : Nat} {t : Tree K V} {n : Nat}, rk t n ≤ fuel →
    Bal t n → (t.isRed = true ∨ t.LR = true) → LenOK f t → (∀ p ∈ t.toList, f p.1 = 1) →
    ∃ t' mk mv, deleteMin fuel t = some (t', mk, mv) ∧ t.toList = (mk, mv) :: t'.toList ∧
      Bal t' n ∧ (t.isRed = false → t'.isRed = false) ∧ LenOK f t' := by
  intro fuel
  induction fuel with
  | zero =>
    intro t n hsz hb hp
    have hn : n = 0 := by unfold rk at hsz; omega
    subst hn
    cases hr : t.isRed with
    | true => rw [rk_isRed hr] at hsz; omega
    | false => rw [hb.zero_nil hr] at hp; simp at hp
  | succ fuel ih =>
    intro t n hsz hb hp hlen hw
    cases t with
    | nil => simp at hp
    | node k v l r c len =>
      cases l with
      | nil =>
        have hc : c = true := by simpa using hp
        subst hc
        obtain ⟨b1, b2, b3, b4⟩ := hb
        simp only [Bal] at b1; subst b1
        have := b2.zero_nil b4; subst this
        exact ⟨nil, k, v, rfl, by simp, rfl, by simp, trivial⟩
      | node lk lv ll lr lc ln =>
        obtain ⟨k1, v1, l1, r1, c1, len1, m, e1, e2, e3, -, e6, e5⟩ :=
          prepLeft_spec hb (by simpa using hp) (by simp)
        have kp := prepLeft_keeps e1
        have hsz1 : rk l1 m ≤ fuel := by omega
        have hl1 := kp.2 f hlen
        simp only [LenOK] at hl1
        have hw1 : ∀ p ∈ l1.toList, f p.1 = 1 := by
          intro p hp; apply hw; rw [← kp.1]; simp [hp]
        obtain ⟨l', mk, mv, g1, g2, g3, g4, g5⟩ := ih hsz1 e2 e3 hl1.1 hw1
        obtain ⟨t', h1, h2, h3⟩ := e5 k1 v1 l' (len1 - 1) g3 g4
        have kf := fixUp_keeps h1
        refine ⟨t', mk, mv, deleteMin_step e1 g1 h1, ?_, h2, by simpa using h3, ?_⟩
        · rw [← kp.1, kf.1]; simp [g2]
        · apply kf.2
          simp only [LenOK]
          refine ⟨g5, hl1.2.1, ?_⟩
          have hm : f mk = 1 := hw1 (mk, mv) (by simp [g2])
          have := hl1.2.2
          rw [g2] at this
          simp only [wsum_cons, hm] at this
          omega

/-- What `delete` needs of the tree it is handed: red, or left child red, or (after
`moveRedRight` rotated) right child red and the key not to its left. -/
def DPre (cmp : Compare K) (key : K) (t : Tree K V) (n : Nat) : Prop :=
  (Bal t n ∧ (t.isRed = true ∨ t.LR = true)) ∨
  ∃ k v l r len m, t = node k v l r false len ∧ n = m + 1 ∧ Bal l m ∧ Bal r m ∧
    l.isRed = false ∧ r.isRed = true ∧ ltb cmp key k = false

/-- What `delete` delivers. -/
def DPost (cmp : Compare K) (key : K) (t t' : Tree K V) (n : Nat) : Prop :=
  t'.toList = t.toList.filter (fun p => !eqb cmp key p.1) ∧ Bal t' n ∧
    (t.isRed = false → t'.isRed = false) ∧ LenOK (wt cmp key) t'

/-- llrb_tree.go:652-665, the tail of `delete`. -/
def deleteTail (cmp : Compare K) (key : K) (fuel : Nat) (res : Int) (k : K) (v : V)
    (l r : Tree K V) (c : Bool) (n : Int) : Option (Tree K V × Option Err) := do
  if res = 0 then
    let (r', mk, mv) ← deleteMin fuel r
    return (← fixUp (node mk mv l r' c n), none)
  else
    match ← delete cmp key fuel r with
    | (r', some e) => return (node k v l r' c n, some e)
    | (r', none) => return (← fixUp (node k v l r' c n), none)

theorem deleteTail_spec (H : Lawful cmp Valid) {key : K} (hk : Valid key) {fuel : Nat}
    (IH : ∀ {t : Tree K V} {n : Nat}, rk t n ≤ fuel → AllValid Valid t.toList →
      Sorted cmp t.toList → has cmp key t.toList = true → LenOK (wt cmp key) t →
      DPre cmp key t n → ∃ t', delete cmp key fuel t = some (t', none) ∧ DPost cmp key t t' n)
    {t : Tree K V} {k : K} {v : V} {l r : Tree K V} {c : Bool} {len : Int} {res : Int} {m n : Nat}
    (hsz : rk r m ≤ fuel) (kp : Keeps t (node k v l r c len))
    (hv : AllValid Valid t.toList) (hs : Sorted cmp t.toList)
    (hh : has cmp key t.toList = true) (hlen : LenOK (wt cmp key) t)
    (hres : (res = 0 ∧ eqb cmp key k = true ∧ Bal r m ∧ (r.isRed = true ∨ r.LR = true)) ∨
      (res ≠ 0 ∧ ltb cmp k key = true ∧ DPre cmp key r m))
    (hpost : ∀ k' v' r' len', Bal r' m → (r.isRed = false → r'.isRed = false) →
        ∃ t', fixUp (node k' v' l r' c len') = some t' ∧ Bal t' n ∧
          (t.isRed = false → t'.isRed = false)) :
    ∃ t', deleteTail cmp key fuel res k v l r c len = some (t', none) ∧ DPost cmp key t t' n := by
  have hv1 := hv; have hs1 := hs; have hh1 := hh
  rw [← kp.1] at hv1 hs1 hh1
  simp only [toList_node] at hv1 hs1 hh1
  have hl1 := kp.2 _ hlen
  simp only [LenOK] at hl1
  rcases hres with ⟨hr, he, hb, hp⟩ | ⟨hr, hgt, hp⟩
  · obtain ⟨-, -, -, hF, a1, a2⟩ := mid_eq H hv1 hs1 hk he
    obtain ⟨r', mk, mv, e1, e2, e3, e4, e5⟩ := deleteMin_spec hsz hb hp hl1.2.1 (wt_absent a2)
    obtain ⟨t', h1, h2, h3⟩ := hpost mk mv r' len e3 e4
    have kf := fixUp_keeps h1
    refine ⟨t', by simp [deleteTail, hr, e1, h1], ?_, h2, h3, ?_⟩
    · rw [kf.1, ← kp.1]; simp only [toList_node]; rw [hF, e2]
    · apply kf.2
      simp only [LenOK]
      refine ⟨hl1.1, e5, ?_⟩
      rw [hl1.2.2, e2]
      simp [wt, he]; omega
  · obtain ⟨-, -, hF, hG⟩ := mid_gt H hv1 hs1 hk hgt
    simp only [has, hF] at hh1
    obtain ⟨r', e1, e2, e3, e4, e5⟩ := IH hsz (valid_right hv1) (sorted_right hs1) hh1 hl1.2.1 hp
    obtain ⟨t', h1, h2, h3⟩ := hpost k v r' len e3 e4
    have kf := fixUp_keeps h1
    refine ⟨t', by simp [deleteTail, hr, e1, h1], ?_, h2, h3, ?_⟩
    · rw [kf.1, ← kp.1]; simp only [toList_node]; rw [hG, e2]
    · apply kf.2
      simp only [LenOK]
      refine ⟨hl1.1, e5, ?_⟩
      rw [hl1.2.2, e2, wsum_wt_filter]

theorem delete_left {fuel : Nat} {key k : K} {v : V} {l r : Tree K V} {c n res k1 v1 l1 r1 c1 n1 l' t'}
    (h0 : cmp key k = .ok res) (hlt : res < 0)
    (h1 : prepLeft (node k v l r c n) = some (node k1 v1 l1 r1 c1 n1))
    (h2 : delete cmp key fuel l1 = some (l', none))
    (h3 : fixUp (node k1 v1 l' r1 c1 n1) = some t') :
    delete cmp key (fuel + 1) (node k v l r c n) = some (t', none) := by
  simp [delete, cmpRoot?, h0, hlt, h1, h2, h3]

theorem delete_right {fuel : Nat} {key k : K} {v : V} {l r : Tree K V}
    {c n res t1 res1 r1 k2 v2 l2 r2 c2 n2 res2}
    (h0 : cmp key k = .ok res) (hlt : ¬ res < 0)
    (h1 : deleteStep1 cmp key res (node k v l r c n) = some (t1, .ok res1))
    (h2 : t1.right? = some r1) (h3 : ¬ (res1 = 0 ∧ r1.isNil = true))
    (h4 : deleteStep2 cmp key res1 t1 = some (node k2 v2 l2 r2 c2 n2, .ok res2)) :
    delete cmp key (fuel + 1) (node k v l r c n) =
      deleteTail cmp key fuel res2 k2 v2 l2 r2 c2 n2 := by
  rw [delete, deleteTail]
  simp [cmpRoot?, h0, hlt, h1, h2, h4, if_neg h3]
  rfl

theorem deleteStep2_no {key k : K} {v : V} {l r : Tree K V} {c n res}
    (h : r.isRed = true ∨ r.LR = true) :
    deleteStep2 cmp key res (node k v l r c n) = some (node k v l r c n, .ok res) := by
  cases r with
  | nil => simp at h
  | node rk rv rl rr rc rn =>
    have : (!rc && !rl.isRed) = false := by
      simp at h
      rcases h with h | h <;> simp [h]
    simp [deleteStep2, right?, blackBlack_node, this]

theorem deleteStep2_yes {key k : K} {v : V} {l r : Tree K V} {c n res k2 v2 l2 r2 c2 n2 res2}
    (hn : r ≠ nil) (h : r.isRed = false) (h' : r.LR = false)
    (hE : moveRedRight (node k v l r c n) = some (node k2 v2 l2 r2 c2 n2))
    (hc : cmp key k2 = .ok res2) :
    deleteStep2 cmp key res (node k v l r c n) = some (node k2 v2 l2 r2 c2 n2, .ok res2) := by
  cases r with
  | nil => simp at hn
  | node rk rv rl rr rc rn =>
    simp at h h'
    subst h
    simp [deleteStep2, right?, blackBlack_node, h', hE, cmpRoot?, hc]

theorem delete_right_nil {fuel : Nat} {key k : K} {v : V} {l : Tree K V} {c n}
    (h0 : cmp key k = .ok 0) (hl : l.isRed = false) :
    delete cmp key (fuel + 1) (node k v l nil c n) = some (nil, none) := by
  simp [delete, cmpRoot?, h0, deleteStep1, left?, hl, right?, isNil]

theorem Keeps.sizes {t t' : Tree K V} (h : Keeps t t') : t'.size = t.size := by
  rw [size_eq, size_eq, h.1]

theorem delete_spec (H : Lawful cmp Valid) {key : K} (hk : Valid key) : ∀ {fuel : Nat}
    {t : Tree K V} {n : Nat}, rk t n ≤ fuel → AllValid Valid t.toList →
      Sorted cmp t.toList → has cmp key t.toList = true → LenOK (wt cmp key) t →
      DPre cmp key t n → ∃ t', delete cmp key fuel t = some (t', none) ∧ DPost cmp key t t' n := by
  intro fuel
  induction fuel with
  | zero =>
    intro t n hsz hv hs hh hlen hp
    have hn : n = 0 := by unfold rk at hsz; omega
    subst hn
    cases hr : t.isRed with
    | true => rw [rk_isRed hr] at hsz; omega
    | false =>
      rcases hp with ⟨hb, -⟩ | ⟨_, _, _, _, _, m, -, h, -⟩
      · rw [hb.zero_nil hr] at hh; simp [has, find] at hh
      · omega
  | succ fuel ih =>
    intro t n hsz hv hs hh hlen hp
    cases t with
    | nil => simp [has, find] at hh
    | node k v l r c len =>
      have hv0 := hv; have hs0 := hs; have hh0 := hh
      simp only [toList_node] at hv0 hs0 hh0
      obtain ⟨res, hres, hc⟩ := H.cases_cmp hk (valid_mid hv0)
      rcases hc with ⟨hlt, h1, -, -⟩ | hge
      · -- left
        obtain ⟨-, -, hF, hG⟩ := mid_lt H hv0 hs0 hk h1
        simp only [has, hF] at hh0
        have hb : Bal (node k v l r c len) n ∧ (c = true ∨ l.isRed = true) := by
          rcases hp with h | ⟨k', v', l', r', len', m, e, -, -, -, -, -, hn⟩
          · simpa using h
          · simp only [node.injEq] at e; obtain ⟨rfl, -⟩ := e; simp_all
        have hl : l ≠ nil := by rintro rfl; simp [find] at hh0
        obtain ⟨k1, v1, l1, r1, c1, len1, m, e1, e2, e3, e4, e6, e5⟩ := prepLeft_spec hb.1 hb.2 hl
        have kp := prepLeft_keeps e1
        have hsz1 : rk l1 m ≤ fuel := by omega
        have hv1 := hv; have hs1 := hs; have hh1 := hh
        rw [← kp.1] at hv1 hs1 hh1
        simp only [toList_node] at hv1 hs1 hh1
        have hl1 := kp.2 _ hlen
        simp only [LenOK] at hl1
        -- the key is below k1
        have hk1 : ltb cmp key k1 = true := by
          rcases List.mem_cons.1 e4 with e | e
          · simp only [Prod.mk.injEq] at e; rw [e.1]; exact h1
          · have := allGt_of_lt H hv0 hs0 hk h1
            exact this _ e
        obtain ⟨-, -, hF1, hG1⟩ := mid_lt H hv1 hs1 hk hk1
        simp only [has, hF1] at hh1
        obtain ⟨l', g1, g2, g3, g4, g5⟩ := ih hsz1 (valid_left hv1) (sorted_left hs1) hh1 hl1.1
          (.inl ⟨e2, e3⟩)
        obtain ⟨t', f1, f2, f3⟩ := e5 k1 v1 l' len1 g3 g4
        have kf := fixUp_keeps f1
        refine ⟨t', delete_left hres hlt e1 g1 f1, ?_, f2, by simpa using f3, ?_⟩
        · rw [kf.1, ← kp.1]; simp only [toList_node]; rw [hG1, g2]
        · apply kf.2
          simp only [LenOK]
          refine ⟨g5, hl1.2.1, ?_⟩
          rw [hl1.2.2, g2, wsum_wt_filter]
      · -- right
        have hlt : ¬ res < 0 := by omega
        have hnlt : ltb cmp key k = false := by rcases hge with h | h <;> exact h.2.1
        cases hl : l.isRed with
        | true =>
          -- rotate right first
          have hb : c = false ∧ Bal (node k v l r c len) n := by
            rcases hp with ⟨h, -⟩ | ⟨k', v', l', r', len', m, e, -, -, -, h5, -, -⟩
            · cases c with
              | true => simp [Bal, hl] at h
              | false => exact ⟨rfl, h⟩
            · simp only [node.injEq] at e; obtain ⟨-, -, rfl, -⟩ := e; simp_all
          obtain ⟨rfl, hb⟩ := hb
          obtain ⟨m, rfl, b1, b2, b3⟩ := hb.black
          obtain ⟨lk, lv, ll, lr, ln, rfl, c1, c2, c3, c4⟩ := b1.red hl
          have hE : ∃ n1 n2, rotateRight (node k v (node lk lv ll lr true ln) r false len) =
              some (node lk lv ll (node k v lr r true n1) false n2) := by simp [rotateRight]
          obtain ⟨n1, n2, hE⟩ := hE
          have kp := rotateRight_keeps hE
          have hlk : Valid lk := by apply hv (lk, lv); simp
          have hlkk : ltb cmp lk key = true := by
            have h1 := (sorted_mid.1 hs0).2.2.1 (lk, lv) (by simp)
            exact H.lt_nlt_trans hlk (valid_mid hv0) hk h1 hnlt
          obtain ⟨res1, hres1, hc1⟩ := H.cases_cmp hk hlk
          have hres1' : 0 < res1 := by
            rcases hc1 with h | h | h
            · simp_all
            · exact h.1
            · simp_all
          rw [delete_right (t1 := node lk lv ll (node k v lr r true n1) false n2) (res1 := res1)
            (res2 := res1) hres hlt
            (by simp [deleteStep1, left?, hE, cmpRoot?, hres1]) rfl (by omega)
            (deleteStep2_no (.inl rfl))]
          refine deleteTail_spec H hk ih (m := m) ?_ kp hv hs hh hlen (.inr ⟨by omega, hlkk, ?_⟩) ?_
          · simp only [rk_red, rk_black] at hsz ⊢; omega
          · exact .inl ⟨⟨c2, b2, c4, b3⟩, .inl rfl⟩
          · intro k' v' r' len' hr' _
            obtain ⟨t', f1, f2, f3⟩ := fixUp_black_right (k := k') (v := v') (len := len') c1 hr'
            exact ⟨t', f1, f2, fun _ => f3 (.inl c3)⟩
        | false =>
          have hS1 : deleteStep1 cmp key res (node k v l r c len) =
              some (node k v l r c len, .ok res) := by simp [deleteStep1, left?, hl]
          -- meaning of `res` in the tail
          have hresT : ∀ {m}, Bal r m → (r.isRed = true ∨ r.LR = true) →
              (res = 0 ∧ eqb cmp key k = true ∧ Bal r m ∧ (r.isRed = true ∨ r.LR = true)) ∨
              (res ≠ 0 ∧ ltb cmp k key = true ∧ DPre cmp key r m) := by
            intro m hbr hpr
            rcases hge with h | h
            · exact .inr ⟨by omega, h.2.2.1, .inl ⟨hbr, hpr⟩⟩
            · exact .inl ⟨h.1, h.2.2.2, hbr, hpr⟩
          cases hrr : r.isRed with
          | true =>
            -- right child red
            have hb : ∃ m, c = false ∧ n = m + 1 ∧ Bal l m ∧ Bal r m := by
              rcases hp with ⟨h, h'⟩ | ⟨k', v', l', r', len', m, e, e1, e2, e3, h5, h6, -⟩
              · cases c with
                | true => simp [Bal, hrr] at h
                | false => obtain ⟨m, -, -, -, a⟩ := h.black; simp_all
              · simp only [node.injEq] at e; obtain ⟨-, -, rfl, rfl, rfl, -⟩ := e
                exact ⟨m, rfl, e1, e2, e3⟩
            obtain ⟨m, rfl, rfl, b1, b2⟩ := hb
            obtain ⟨rk, rv, rl, rr, rn, rfl, -⟩ := b2.red hrr
            rw [delete_right hres hlt hS1 rfl (by simp [isNil])
              (deleteStep2_no (.inl rfl))]
            refine deleteTail_spec H hk ih (m := m) (by simp only [rk_red, rk_black] at hsz ⊢; omega) (Keeps.refl _) hv hs hh hlen
              (hresT b2 (.inl rfl)) ?_
            intro k' v' r' len' hr' _
            obtain ⟨t', f1, f2, f3⟩ := fixUp_black_right (k := k') (v := v') (len := len') b1 hr'
            exact ⟨t', f1, f2, fun _ => f3 (.inl hl)⟩
          | false =>
            have hb : c = true ∧ Bal (node k v l r c len) n := by
              rcases hp with ⟨h, h'⟩ | ⟨k', v', l', r', len', m, e, e1, e2, e3, h5, h6, -⟩
              · simp [hl] at h'; exact ⟨h', h⟩
              · simp only [node.injEq] at e; obtain ⟨-, -, -, rfl, -⟩ := e; simp_all
            obtain ⟨rfl, b1, b2, -, -⟩ := hb
            cases r with
            | nil =>
              have hn : n = 0 := b2
              subst hn
              have := b1.zero_nil hl
              subst this
              have he : eqb cmp key k = true := by
                obtain ⟨p, hp1, hp2⟩ := has_iff.1 hh0
                simp at hp1; subst hp1; exact hp2
              have hr0 : res = 0 := by rcases hge with h | h <;> simp_all
              subst hr0
              refine ⟨nil, delete_right_nil hres rfl, ?_, rfl, by simp, trivial⟩
              simp [he]
            | node rk rv rl rr rc rn =>
              simp only [isRed_node] at hrr; subst hrr
              cases hrl : rl.isRed with
              | true =>
                rw [delete_right hres hlt hS1 rfl (by simp [isNil])
                  (deleteStep2_no (.inr (by simp [hrl])))]
                refine deleteTail_spec H hk ih (m := n) (by simp only [rk_red, rk_black] at hsz ⊢; omega) (Keeps.refl _) hv hs hh hlen
                  (hresT b2 (.inr (by simp [hrl]))) ?_
                intro k' v' r' len' hr' hbl
                obtain ⟨t', f1, -, f3⟩ := fixUp_red_right (k := k') (v := v') (len := len') b1 hr' hl
                exact ⟨t', f1, f3 (hbl rfl), by simp⟩
              | false =>
                obtain ⟨m, rfl, br1, br2, br3⟩ := b2.black
                obtain ⟨lk, lv, ll, lr, ln, rfl, bl1, bl2, bl3⟩ := b1.succ_node hl
                cases hll : ll.isRed with
                | true =>
                  have hE : ∃ n1 n2 n3, moveRedRight (node k v (node lk lv ll lr false ln)
                      (node rk rv rl rr false rn) true len) =
                      some (node lk lv ll.blacken (node k v lr (node rk rv rl rr true n1) false n2)
                        true n3) := by
                    cases ll with
                    | nil => simp at hll
                    | node a b e f g h =>
                      simp only [isRed_node] at hll; subst hll
                      simp [moveRedRight, colorFlip, toggle?, left?, rotateRight, blacken]
                  obtain ⟨n1, n2, n3, hE⟩ := hE
                  have kp := moveRedRight_keeps hE
                  have hlk : Valid lk := by apply hv (lk, lv); simp
                  have hlkk : ltb cmp lk key = true := by
                    have h1 := (sorted_mid.1 hs0).2.2.1 (lk, lv) (by simp)
                    exact H.lt_nlt_trans hlk (valid_mid hv0) hk h1 hnlt
                  obtain ⟨res2, hres2, hc2⟩ := H.cases_cmp hk hlk
                  have hres2' : 0 < res2 := by
                    rcases hc2 with h | h | h
                    · simp_all
                    · exact h.1
                    · simp_all
                  rw [delete_right hres hlt hS1 rfl (by simp [isNil])
                    (deleteStep2_yes (by simp) rfl (by simp [hrl]) hE hres2)]
                  refine deleteTail_spec H hk ih (m := m + 1) ?_ kp hv hs hh hlen
                    (.inr ⟨by omega, hlkk, ?_⟩) ?_
                  · simp only [rk_red, rk_black] at hsz ⊢; omega
                  · exact .inr ⟨_, _, _, _, _, m, rfl, rfl, bl2, ⟨br1, br2, hrl, br3⟩, bl3, rfl, hnlt⟩
                  · intro k' v' r' len' hr' hbl
                    obtain ⟨t', f1, -, f3⟩ := fixUp_red_right (k := k') (v := v') (len := len')
                      (bl1.blacken hll) hr' (by simp)
                    exact ⟨t', f1, f3 (hbl rfl), by simp⟩
                | false =>
                  have hE : moveRedRight (node k v (node lk lv ll lr false ln)
                      (node rk rv rl rr false rn) true len) =
                      some (node k v (node lk lv ll lr true ln) (node rk rv rl rr true rn)
                        false len) := by
                    simp [moveRedRight, colorFlip, toggle?, left?, hll]
                  have kp := moveRedRight_keeps hE
                  rw [delete_right hres hlt hS1 rfl (by simp [isNil])
                    (deleteStep2_yes (by simp) rfl (by simp [hrl]) hE hres)]
                  have b2' : Bal (node rk rv rl rr true rn) m := ⟨br1, br2, hrl, br3⟩
                  refine deleteTail_spec H hk ih (m := m) ?_ kp hv hs hh hlen ?_ ?_
                  · simp only [rk_red, rk_black] at hsz ⊢; omega
                  · rcases hge with h | h
                    · exact .inr ⟨by omega, h.2.2.1, .inl ⟨b2', .inl rfl⟩⟩
                    · exact .inl ⟨h.1, h.2.2.2, b2', .inl rfl⟩
                  · intro k' v' r' len' hr' _
                    obtain ⟨t', f1, f2, -⟩ := fixUp_black_right (k := k') (v := v') (len := len')
                      (show Bal (node lk lv ll lr true ln) m from ⟨bl1, bl2, hll, bl3⟩) hr'
                    exact ⟨t', f1, f2, by simp⟩

end SM.LLRB.Tree

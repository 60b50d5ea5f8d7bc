import Verif.BTree.Reads
import Verif.BTree.Rest

/-! A descent to a leaf reads at most one node per level, whether it succeeds or not. -/

namespace SM.BT

variable {K V : Type}

theorem Res.gets {α β : Type} {m : M K V α} {f : α → M K V β} {w : World K V} {Q : α → World K V → Prop} {E : Err → World K V → Prop} {b : Nat} (h : Res (m w) Q E) (hm : Reads 1 m)
    (hf : ∀ x w', Q x w' → (f x w').2.env.gets ≤ w'.env.gets + b) : ((m >>= f) w).2.env.gets ≤ w.env.gets + (b + 1) := by
  have h1 := (hm.run w).2
  rcases hr : m w with ⟨_ | _ | _, w'⟩ <;> rw [hr] at h h1
  · rw [bind_ok hr]
    have := hf _ _ h
    simp only at h1
    omega
  · rw [bind_err hr]
    simp only at h1 ⊢
    omega
  · exact h.elim

section
variable {P : Par K} {w0 : World K V} {T : Tot K V} {ρ : Option Id} {R : B K V} {H : Nat}

theorem keyDescend_cost (mark : Bool) (key : K) (g : Gt K V H) : ∀ {h : Nat} (C : Ctx K V H h) (t : Gt K V h) {w : World K V}
    {fuel : Nat}, h < fuel → I P w0 T w ρ (bun P C.pos t + (C.bun P t.kid + R)) → Sim P g (C.plug t) →
    Ord P.toCmp (C.plug t).erase.seq → t.odds = 0 → t.erase.NE P.max → (P.Valid key → C.Fits P key) →
    (keyDescend P.cmp P.τ mark key fuel t.id C.stack w).2.env.gets ≤ w.env.gets + (h + 1) := by
  intro h
  induction h with
  | zero =>
    intro C t w fuel hf hI hs ho hz hne hfit
    obtain ⟨fuel, rfl⟩ : ∃ f, fuel = f + 1 := ⟨fuel - 1, by omega⟩
    simp only [keyDescend]
    refine (visit_run mark hI hz (ord_plug ho)).gets (.visit _ _ _ _) ?_
    · rintro _ w1 ⟨t', g1, g2, h1⟩
      rw [← g2.odds] at hz
      rcases t'.cases0 with ⟨i, d, rfl⟩ | ⟨i, st, l, rfl⟩ | ⟨i, o, l, rfl⟩
      rotate_right
      · simp at hz
      · simp at g1
      · rw [← g2.kid] at h1
        rw [← g2.id]
        simp only [getN_bind, id_leaf, h1.isLeaf.leaf, if_true]
        exact Nat.le_refl _
  | succ h ih =>
    intro C t w fuel hf hI hs ho hz hne hfit
    obtain ⟨fuel, rfl⟩ : ∃ f, fuel = f + 1 := ⟨fuel - 1, by omega⟩
    simp only [keyDescend]
    refine (visit_run mark hI hz (ord_plug ho)).gets (.visit _ _ _ _) ?_
    · rintro _ w1 ⟨t', g1, g2, h1⟩
      rw [← g2.odds] at hz
      rcases t'.casesS with ⟨i, d, rfl⟩ | ⟨i, st, r, rfl⟩ | ⟨i, o, r, rfl⟩
      rotate_right
      · simp [odds_odInner] at hz
      · simp at g1
      · rw [← g2.kid] at h1
        rw [← g2.id]
        rw [← g2.erase, erase_inner, NE_inner] at hne
        have hin := h1.isInner
        simp only [getN_bind, id_inner, hin.leaf, Bool.false_eq_true, if_false]
        obtain ⟨c1, c2⟩ := childFor_run hin (by intro h0; exact hne.1.1 (by simp [h0])) key
        have hs' := hs.trans (C.sim g2)
        have ho' : Ord P.toCmp (C.plug (.inner i st r)).erase.seq := by rw [(C.sim (P := P) g2).erase]; exact ho
        by_cases hk : P.Valid key
        · obtain ⟨pre, c, post, rfl, e, h2, h3⟩ := c1 hk
          rw [bind_ok e]
          have := ih (C := .fr i st pre post C) (t := c) (w := w1) (fuel := fuel) (by omega)
            (h1.eq (by rw [← add_assoc, ctx_down, add_assoc])) hs' ho' (odds_kid hz (by simp))
            (hne.2 c.erase (by simp)) (fun _ => (hfit hk).down hk ho' h2 h3)
          exact this
        · obtain ⟨e, e1, e2⟩ := c2 hk
          rw [bind_err e1]; exact Nat.le_add_right _ _

/-- So with the descent of FetchDimensionsReport along the leftmost children. -/
theorem dimLoop_cost (g : Gt K V H) : ∀ {h : Nat} (C : Ctx K V H h) (t : Gt K V h) {w : World K V}
    {fuel : Nat} (d : Dimensions), h < fuel → I P w0 T w ρ (bun P C.pos t + (C.bun P t.kid + R)) → Sim P g (C.plug t) →
    Ord P.toCmp (C.plug t).erase.seq → t.odds = 0 →
    (dimLoop P.cmp P.τ fuel t.id d w).2.env.gets ≤ w.env.gets + (h + 1) := by
  intro h
  induction h with
  | zero =>
    intro C t w fuel d hf hI hs ho hz
    obtain ⟨fuel, rfl⟩ : ∃ f, fuel = f + 1 := ⟨fuel - 1, by omega⟩
    simp only [dimLoop]
    refine (visit_run true hI hz (ord_plug ho)).gets (.visit _ _ _ _) ?_
    · rintro _ w1 ⟨t', g1, g2, h1⟩
      rw [← g2.odds] at hz
      rcases t'.cases0 with ⟨i, d, rfl⟩ | ⟨i, st, l, rfl⟩ | ⟨i, o, l, rfl⟩
      rotate_right
      · simp at hz
      · simp at g1
      · rw [← g2.kid] at h1
        rw [← g2.id]
        simp only [getN_bind, getT_bind, id_leaf, h1.isLeaf.leaf, if_true]
        exact Nat.le_refl _
  | succ h ih =>
    intro C t w fuel d hf hI hs ho hz
    obtain ⟨fuel, rfl⟩ : ∃ f, fuel = f + 1 := ⟨fuel - 1, by omega⟩
    simp only [dimLoop]
    refine (visit_run true hI hz (ord_plug ho)).gets (.visit _ _ _ _) ?_
    · rintro _ w1 ⟨t', g1, g2, h1⟩
      rw [← g2.odds] at hz
      rcases t'.casesS with ⟨i, d', rfl⟩ | ⟨i, st, r, rfl⟩ | ⟨i, o, r, rfl⟩
      rotate_right
      · simp [odds_odInner] at hz
      · simp at g1
      · rw [← g2.kid] at h1
        rw [← g2.id]
        have hin := h1.isInner
        have hs' := hs.trans (C.sim g2)
        have ho' : Ord P.toCmp (C.plug (.inner i st r)).erase.seq := by rw [(C.sim (P := P) g2).erase]; exact ho
        simp only [getN_bind, getT_bind, id_inner, hin.leaf, hin.left, Bool.false_eq_true, if_false, deref_some_bind]
        obtain ⟨c0, cs⟩ := r
        exact ih (C := .fr i st none cs C) (t := c0) (w := w1) (fuel := fuel) _ (by omega)
          (h1.eq (by rw [← add_assoc, ← add_assoc]; exact congrArg (· + R) (ctx_down C i st none c0 cs))) hs' ho' (odds_kid hz (by simp [Row.kids]))

theorem indexDescend_cost (mark : Bool) (g : Gt K V H) : ∀ {h : Nat} (C : Ctx K V H h) (t : Gt K V h) {w : World K V}
    {fuel : Nat} {k : Nat}, h + P.max + 1 ≤ fuel → I P w0 T w ρ (bun P C.pos t + (C.bun P t.kid + R)) → Sim P g (C.plug t) →
    Ord P.toCmp (C.plug t).erase.seq → t.odds = 0 → t.erase.NE P.max → k < t.cnt →
    (indexDescend P.cmp P.τ mark fuel t.id k C.stack w).2.env.gets ≤ w.env.gets + (h + 1) := by
  intro h
  induction h with
  | zero =>
    intro C t w fuel k hf hI hs ho hz hne hk
    obtain ⟨fuel, rfl⟩ : ∃ f, fuel = f + 1 := ⟨fuel - 1, by omega⟩
    simp only [indexDescend]
    refine (visit_run mark hI hz (ord_plug ho)).gets (.visit _ _ _ _) ?_
    · rintro _ w1 ⟨t', g1, g2, h1⟩
      rw [← g2.odds] at hz
      rcases t'.cases0 with ⟨i, d, rfl⟩ | ⟨i, st, l, rfl⟩ | ⟨i, o, l, rfl⟩
      rotate_right
      · simp at hz
      · simp at g1
      · rw [← g2.kid] at h1
        rw [← g2.id]
        rw [← g2.cnt] at hk
        simp only [getN_bind, id_leaf, h1.isLeaf.leaf, if_true]
        exact Nat.le_refl _
  | succ h ih =>
    intro C t w fuel k hf hI hs ho hz hne hk
    obtain ⟨fuel, rfl⟩ : ∃ f, fuel = f + 1 := ⟨fuel - 1, by omega⟩
    simp only [indexDescend]
    refine (visit_run mark hI hz (ord_plug ho)).gets (.visit _ _ _ _) ?_
    · rintro _ w1 ⟨t', g1, g2, h1⟩
      rw [← g2.odds] at hz
      rcases t'.casesS with ⟨i, d, rfl⟩ | ⟨i, st, r, rfl⟩ | ⟨i, o, r, rfl⟩
      rotate_right
      · simp [odds_odInner] at hz
      · simp at g1
      · rw [← g2.kid] at h1
        rw [← g2.id]
        rw [← g2.erase, erase_inner, NE_inner] at hne
        rw [← g2.cnt, cnt_inner] at hk
        have hin := h1.isInner
        simp only [getN_bind, id_inner, hin.leaf, Bool.false_eq_true, if_false]
        have hs' := hs.trans (C.sim g2)
        have ho' : Ord P.toCmp (C.plug (.inner i st r)).erase.seq := by rw [(C.sim (P := P) g2).erase]; exact ho
        obtain ⟨b, b1, b2, b3, b4⟩ := hin.ps
        obtain ⟨x, hx, -⟩ := PT.root?_of_ne (b := b) (by rw [b1]; simp [Row.kids, idxFrom])
        have hsum : b.sum = (r.kids.map Gt.cnt).sum := by
          rw [PT.sum_tot, b1, idxFrom_tot, total]; simp [Function.comp_def]
        obtain ⟨pre, i', n, y, post, e1, e2, e3, e4⟩ := psFind_run (w := w1) (fuel := fuel + 1) b2 (by
          intro z hz
          rw [b1] at hz
          obtain ⟨t, ht, e⟩ := List.mem_map.1 (mem_idxFrom hz)
          simp only [Prod.mk.injEq] at e
          rw [← e.1, ← e.2]; exact hin.counts t ht) hx (hsum ▸ hk) (by
            rw [b1, idxFrom_length]; simp
            have := hne.1.2; simp at this; omega)
        rw [b3, hx, deref_some_bind, bind_ok e4]
        rw [b1] at e1
        obtain ⟨q1, q2, e5, rfl, rfl⟩ := idxFrom_split e1
        obtain ⟨k1, k2, e6, rfl, e7⟩ := List.map_eq_append_iff.1 e5
        obtain ⟨c, k2', rfl, e8, rfl⟩ := List.map_eq_cons_iff.1 e7
        simp only [Prod.mk.injEq] at e8
        obtain ⟨rfl, rfl⟩ := e8
        obtain ⟨pre', post', rfl, rfl, rfl⟩ := Row.split e6
        have ht : tot (idxFrom (-1) ((Row.kidsH pre').map fun t => (t.id, t.cnt))) = ((Row.kidsH pre').map Gt.cnt).sum := by
          rw [idxFrom_tot, total]; simp [Function.comp_def]
        rw [ht] at e2 e3 e4 ⊢
        have hkv : (w1.ps c.id).kvIndex = -1 + (Row.kidsH pre').length := by
          have := b2.mem (z := (c.id, c.cnt, -1 + ((Row.kidsH pre').length : Int))) (by rw [b1, e1]; simp)
          exact this
        have := ih (C := .fr i st pre' post' C) (t := c) (w := w1) (fuel := fuel) (k := k - ((Row.kidsH pre').map Gt.cnt).sum) (by omega)
          (h1.eq (by rw [← add_assoc, ctx_down, add_assoc])) hs' ho' (odds_kid hz (by simp))
          (hne.2 c.erase (by simp)) (by omega)
        simp only [getP_bind, hkv]
        rw [show ((-1 + ((Row.kidsH pre').length : Int)) :: C.stack) = (Ctx.fr i st pre' post' C).stack by simp only [Ctx.stack]; rw [show (-1 + ((Row.kidsH pre').length : Int)) = (Row.kidsH pre').length - 1 by omega]]
        exact this

theorem bisectLoop_cost {f : LLRB.Tree K (Val V) → Option (Int × Bool × Option Err)} (key : K) (g : Gt K V H) :
    ∀ {h : Nat} (C : Ctx K V H h) (t : Gt K V h) {w : World K V} {fuel : Nat}, h + P.max + 1 ≤ fuel →
    I P w0 T w ρ (bun P C.pos t + (C.bun P t.kid + R)) → Sim P g (C.plug t) →
    Ord P.toCmp (C.plug t).erase.seq → t.odds = 0 → t.erase.NE P.max → (P.Valid key → C.Fits P key) →
    (bisectLoop P.cmp P.τ f key fuel t.id C.lflat.length w).2.env.gets ≤ w.env.gets + (h + 1) := by
  intro h
  induction h with
  | zero =>
    intro C t w fuel hf hI hs ho hz hne hfit
    obtain ⟨fuel, rfl⟩ : ∃ f, fuel = f + 1 := ⟨fuel - 1, by omega⟩
    simp only [bisectLoop]
    refine (visit_run true hI hz (ord_plug ho)).gets (.visit _ _ _ _) ?_
    · rintro _ w1 ⟨t', g1, g2, h1⟩
      rw [← g2.odds] at hz
      rcases t'.cases0 with ⟨i, d, rfl⟩ | ⟨i, st, l, rfl⟩ | ⟨i, o, l, rfl⟩
      rotate_right
      · simp at hz
      · simp at g1
      · rw [← g2.kid] at h1
        rw [← g2.id]
        simp only [getN_bind, id_leaf, h1.isLeaf.leaf, if_true]
        have hd : Dry (do
            let __do_lift ← kvOf i
            let (a, b) ← liftBisect (f __do_lift)
            Pure.pure ((C.lflat.length : Int) + a, b) : M K V (Int × Bool)) := by dry
        exact Nat.le_of_eq (hd.run w1)
  | succ h ih =>
    intro C t w fuel hf hI hs ho hz hne hfit
    obtain ⟨fuel, rfl⟩ : ∃ f, fuel = f + 1 := ⟨fuel - 1, by omega⟩
    simp only [bisectLoop]
    refine (visit_run true hI hz (ord_plug ho)).gets (.visit _ _ _ _) ?_
    · rintro _ w1 ⟨t', g1, g2, h1⟩
      rw [← g2.odds] at hz
      rcases t'.casesS with ⟨i, d, rfl⟩ | ⟨i, st, r, rfl⟩ | ⟨i, o, r, rfl⟩
      rotate_right
      · simp [odds_odInner] at hz
      · simp at g1
      · rw [← g2.kid] at h1
        rw [← g2.id]
        rw [← g2.erase, erase_inner, NE_inner] at hne
        have hin := h1.isInner
        simp only [getN_bind, id_inner, hin.leaf, Bool.false_eq_true, if_false]
        obtain ⟨c1, c2⟩ := childFor_run hin (by intro h0; exact hne.1.1 (by simp [h0])) key
        have hs' := hs.trans (C.sim g2)
        have ho' : Ord P.toCmp (C.plug (.inner i st r)).erase.seq := by rw [(C.sim (P := P) g2).erase]; exact ho
        by_cases hk : P.Valid key
        · obtain ⟨pre, c, post, rfl, e, h2, h3⟩ := c1 hk
          rw [bind_ok e]
          have := ih (C := .fr i st pre post C) (t := c) (w := w1) (fuel := fuel) (by omega)
            (h1.eq (by rw [← add_assoc, ctx_down, add_assoc])) hs' ho' (odds_kid hz (by simp))
            (hne.2 c.erase (by simp)) (fun _ => (hfit hk).down hk ho' h2 h3)
          rw [lflat_fr] at this
          dsimp only
          split
          · rename_i hidx
            obtain ⟨b, b1, b2, b3, b4⟩ := hin.ps
            have hp := psDelta_run (w := w1) b2 (by
                rw [PT.ids, b1, idxFrom_fst]; simpa [Function.comp_def] using hin.nodup)
              (by
                intro z hz
                rw [b1] at hz
                obtain ⟨t, ht, e⟩ := List.mem_map.1 (mem_idxFrom hz)
                simp only [Prod.mk.injEq] at e
                rw [← e.1, ← e.2]; exact hin.counts t ht) b3
              (pre := idxFrom (-1) ((Row.kidsH pre).map fun t => (t.id, t.cnt))) (c := c.id) (n := c.cnt)
              (x := -1 + (((Row.kidsH pre).map fun t => (t.id, t.cnt)).length : Int))
              (post := idxFrom (-1 + (((Row.kidsH pre).map fun t => (t.id, t.cnt)).length : Int) + 1) ((post.map Prod.snd).map fun t => (t.id, t.cnt)))
              (by rw [b1, Row.kids_plug, List.map_append, List.map_cons, idxFrom_append, idxFrom])
              (fuel := fuel + 1) (by
                rw [b1, idxFrom_length]; simp
                have h0 := Row.length_kids ((Row.plug pre c post).map Gt.erase)
                have := hne.1.2
                rw [Row.kids_map, List.length_map, Row.kids_plug] at h0
                simp only [List.length_append, List.length_cons, List.length_map] at h0
                omega) C.lflat.length
            rw [bind_ok hp]
            have ht : tot (idxFrom (-1) ((Row.kidsH pre).map fun t => (t.id, t.cnt))) = ((Row.kidsH pre).map Gt.cnt).sum := by
              rw [idxFrom_tot, total]; simp [Function.comp_def]
            rw [ht]
            exact this
          · rename_i hidx
            have hnil : Row.kidsH pre = [] := by
              cases hp : Row.kidsH pre with
              | nil => rfl
              | cons a l => simp [hp] at hidx
            rw [hnil] at this
            exact this
        · obtain ⟨e, e1, e2⟩ := c2 hk
          rw [bind_err e1]; exact Nat.le_add_right _ _

theorem gets_dry {α β : Type} {m : M K V α} {f : α → M K V β} (hf : ∀ a, Dry (f a)) {w : World K V} {n : Nat} (h : (m w).2.env.gets ≤ n) : ((m >>= f) w).2.env.gets ≤ n := by
  rcases hr : m w with ⟨_ | _ | _, w'⟩ <;> rw [hr] at h
  · rw [bind_ok hr, (hf _).run]; exact h
  · rw [bind_err hr]; exact h
  · show (M.bind m f w).2.env.gets ≤ n
    unfold M.bind
    rw [hr]
    exact h

theorem Ctx.stack_length : ∀ {h : Nat} (C : Ctx K V H h), C.stack.length + h = H
  | _, .top => by simp [Ctx.stack]
  | h, .fr i st pre post up => by have := up.stack_length; simp only [Ctx.stack, List.length_cons]; omega

/-- The most nodes an operation reads on a tree of `h + 1` levels. -/
def opCost (h : Nat) : Spec.Op K V → Nat
  | .deleteByKey _ | .deleteByIndex _ => 3 * h + 1
  | .len => 1
  | _ => h + 1

variable {g : Gt K V H} {w : World K V} {fuel : Nat}

theorem Rest.keyCost (hr : Rest P w0 T R g w) (mark : Bool) (key : K) (hf : H < fuel) :
    (keyDescend P.cmp P.τ mark key fuel g.id [] w).2.env.gets ≤ w.env.gets + (H + 1) :=
  keyDescend_cost mark key g .top g (w := w) (R := slotB {g.id} + R) hf (by simpa [Ctx.pos, Ctx.bun] using hr.I) (.refl g) hr.ord hr.odds (hr.occ.ne P.min_pos) (fun _ => Ctx.Fits.top key)

theorem Rest.indexCost (hr : Rest P w0 T R g w) (mark : Bool) {k : Nat} (hk : k < g.erase.flat.length) (hf : H + P.max < fuel) :
    (indexDescend P.cmp P.τ mark fuel g.id k [] w).2.env.gets ≤ w.env.gets + (H + 1) :=
  indexDescend_cost mark g .top g (w := w) (R := slotB {g.id} + R) (fuel := fuel) (k := k) (by omega) (by simpa [Ctx.pos, Ctx.bun] using hr.I) (.refl g) hr.ord
    hr.odds (hr.occ.ne P.min_pos) hk

theorem Rest.bisectCost (hr : Rest P w0 T R g w) {f : LLRB.Tree K (Val V) → Option (Int × Bool × Option Err)} (key : K) (hf : H + P.max < fuel) :
    (bisectLoop P.cmp P.τ f key fuel g.id 0 w).2.env.gets ≤ w.env.gets + (H + 1) :=
  bisectLoop_cost key g .top g (w := w) (R := slotB {g.id} + R) (fuel := fuel) (by omega) (by simpa [Ctx.pos, Ctx.bun] using hr.I) (.refl g) hr.ord
    hr.odds (hr.occ.ne P.min_pos) (fun _ => Ctx.Fits.top key)

theorem Rest.cost (hr : Rest P w0 T R g w) (hf : H + P.max < fuel) {op : Spec.Op K V} (hop : op ≠ .validate) :
    (step P.cmp P.τ fuel op w).2.env.gets ≤ w.env.gets + opCost H op := by
  have hroot := hr.root
  have hH : H < fuel := by omega
  have hrange : ∀ {α : Type} {i : Int} {a : α} {m : M K V α} {n : Nat}, (0 ≤ i → i.toNat < g.erase.flat.length → (m w).2.env.gets ≤ w.env.gets + n) →
      ((do if ← BT.outOfRange P.τ i then Pure.pure a else m) w).2.env.gets ≤ w.env.gets + n := by
    intro α i a m n h
    have e : BT.outOfRange P.τ i w = (.ok (decide (i < 0) || decide (i ≥ ((w.node g.id).items : Int))), w) := by
      unfold BT.outOfRange
      rw [bind_ok hroot]
      rfl
    rw [bind_ok e]
    split
    · exact Nat.le_add_right _ _
    · rename_i hn
      simp only [hr.items, Bool.or_eq_true, decide_eq_true_eq, not_or, not_lt, not_le] at hn
      exact h hn.1 (by omega)
  cases op with
  | put k v =>
    refine gets_dry (fun _ => by dry) ?_
    unfold put
    rw [bind_ok hroot]
    exact gets_dry (fun _ => by dry) (hr.keyCost _ _ hH)
  | getByKey k =>
    refine gets_dry (fun _ => by dry) ?_
    unfold getByKey
    rw [bind_ok hroot]
    exact gets_dry (fun _ => by dry) (hr.keyCost _ _ hH)
  | patchByKey k v =>
    refine gets_dry (fun _ => by dry) ?_
    unfold patchByKey
    rw [bind_ok hroot]
    exact gets_dry (fun _ => by dry) (hr.keyCost _ _ hH)
  | getByIndex i =>
    refine gets_dry (fun _ => by dry) (hrange fun h0 hi => ?_)
    rw [bind_ok hroot]
    exact gets_dry (fun _ => by dry) (hr.indexCost _ hi hf)
  | patchByIndex i v =>
    refine gets_dry (fun _ => by dry) (hrange fun h0 hi => ?_)
    rw [bind_ok hroot]
    exact gets_dry (fun _ => by dry) (hr.indexCost _ hi hf)
  | bisectLeft k =>
    refine gets_dry (fun _ => by dry) ?_
    unfold bisectLeft
    rw [bind_ok hroot]
    exact hr.bisectCost _ hf
  | bisectRight k =>
    refine gets_dry (fun _ => by dry) ?_
    unfold bisectRight
    rw [bind_ok hroot]
    exact hr.bisectCost _ hf
  | len =>
    refine gets_dry (fun _ => by dry) ?_
    unfold len
    rw [bind_ok hroot]
    exact gets_dry (fun _ => by dry) ((Reads.visit _ _ _ _).run w).2
  | validate => exact absurd rfl hop
  | deleteByKey k =>
    refine gets_dry (fun _ => by dry) ?_
    unfold deleteByKey
    rw [bind_ok hroot]
    have h1 := hr.keyCost true k hH
    have h2 := hr.byKey true k hH
    rcases h2.cases with ⟨a, w1, e, C, i, st, l, rfl, -⟩ | ⟨x, w1, e, -⟩ <;> rw [e] at h1
    · rw [bind_ok e]
      have hC := C.stack_length
      have hd : Reads (2 * C.stack.length) (do
          match LLRB.Tree.deleteByKey P.cmp k (← kvOf i) with
          | none => M.fatal
          | some ((ok, some e), t) => do
              setKv i t
              return (ok, some e)
          | some ((false, none), t) => do
              setKv i t
              return (false, none)
          | some ((true, none), t) => do
              setKv i t
              withErr true (afterDelete P.cmp P.τ fuel i C.stack) : M K V (Bool × Option Err)) := by
        refine .after (.kvOf i) fun tr => ?_
        split
        · exact .dry .fatal
        · exact .dry (by dry)
        · exact .dry (by dry)
        · refine .after (.setKv _ _) fun _ => ?_
          unfold withErr afterDelete
          refine .before (.attempt (.after (.markNodeDirty _ _) fun _ => .after (.update _ _ _) fun _ => .rebalanceHere _ _ _ _ _)) fun _ => ?_
          dry
      refine Nat.le_trans (hd.run w1).2 ?_
      simp only [opCost] at h1 ⊢
      omega
    · rw [bind_err e]
      simp only [opCost] at h1 ⊢
      omega
  | deleteByIndex i =>
    refine gets_dry (fun _ => by dry) (hrange fun h0 hi => ?_)
    rw [bind_ok hroot]
    have h1 := hr.indexCost true hi hf
    have h2 := hr.byIndex true hi hf
    rcases h2.cases with ⟨a, w1, e, C, j, st, l, k', rfl, -⟩ | ⟨x, w1, e, -⟩ <;> rw [e] at h1
    · rw [bind_ok e]
      have hC := C.stack_length
      have hd : Reads (2 * C.stack.length) (do
          let _ ← kvDeleteByIndex P.cmp j k'
          afterDelete P.cmp P.τ fuel j C.stack
          return (true, none) : M K V (Bool × Option Err)) := by
        unfold afterDelete
        exact .after (.kvDeleteByIndex _ _ _) fun _ => .before (.after (.markNodeDirty _ _) fun _ => .after (.update _ _ _) fun _ => .rebalanceHere _ _ _ _ _) fun _ => .pure _
      refine Nat.le_trans (hd.run w1).2 ?_
      simp only [opCost] at h1 ⊢
      omega
    · rw [bind_err e]
      simp only [opCost] at h1 ⊢
      omega

theorem Rest.dimensionsCost (hr : Rest P w0 T R g w) (hf : H < fuel) :
    (fetchDimensionsReport P.cmp P.τ fuel w).2.env.gets ≤ w.env.gets + (H + 1) := by
  unfold fetchDimensionsReport
  rw [bind_ok hr.root]
  exact dimLoop_cost g .top g (w := w) (R := slotB {g.id} + R) _ hf (by simpa [Ctx.pos, Ctx.bun] using hr.I) (.refl g) hr.ord hr.odds

theorem Rest.touchItemCost (hr : Rest P w0 T R g w) (hf : H + P.max < fuel) (k : Nat) :
    (touchItem P.cmp P.τ fuel k w).2.env.gets ≤ w.env.gets + (H + 1) := by
  unfold touchItem
  rw [bind_ok hr.root, getN_bind]
  split
  · exact Nat.le_add_right _ _
  · split
    · exact Nat.le_add_right _ _
    · rename_i hk
      rw [hr.items] at hk
      exact gets_dry (fun _ => by dry) (hr.indexCost _ (by omega) hf)

end

/-! ### The number of items bounds the number of levels -/

section
variable {K V : Type}

theorem sum_ge {α : Type} {f : α → Nat} {n : Nat} : ∀ {l : List α}, (∀ a ∈ l, n ≤ f a) → l.length * n ≤ (l.map f).sum
  | [], _ => by simp
  | a :: l, h => by
      have := sum_ge fun b hb => h b (List.mem_cons_of_mem _ hb)
      have := h a (by simp)
      rw [List.length_cons, Nat.add_mul, List.map_cons, List.sum_cons]
      omega

theorem Pt.Occ.many {min max : Nat} : ∀ {h : Nat} {p : Pt K V h}, p.Occ min max → (min + 1) ^ h * min ≤ p.flat.length
  | 0, p, ho => by
      obtain ⟨l, hl⟩ := p.cases0
      rw [hl, occ_leaf] at ho
      rw [hl]
      simpa using ho.1
  | h + 1, p, ho => by
      obtain ⟨r, hr⟩ := p.casesS
      rw [hr, occ_inner] at ho
      rw [hr]
      have := sum_ge (f := fun c : Pt K V h => c.flat.length) fun c hc => (ho.2 c hc).many
      rw [flat_inner, List.length_flatMap]
      refine Nat.le_trans ?_ this
      rw [Row.length_kids, Nat.pow_succ, Nat.mul_comm _ (min + 1), Nat.mul_assoc]
      exact Nat.mul_le_mul_right _ (by omega)

theorem Pt.RootOcc.many {min max : Nat} {h : Nat} {p : Pt K V (h + 1)} (ho : p.RootOcc min max) : 2 * ((min + 1) ^ h * min) ≤ p.flat.length := by
  obtain ⟨r, hr⟩ := p.casesS
  rw [hr, rootOcc_inner] at ho
  rw [hr]
  have := sum_ge (f := fun c : Pt K V h => c.flat.length) fun c hc => (ho.2 c hc).many
  rw [flat_inner, List.length_flatMap]
  refine Nat.le_trans ?_ this
  rw [Row.length_kids]
  exact Nat.mul_le_mul_right _ (by omega)

end

end SM.BT

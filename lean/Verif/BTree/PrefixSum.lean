import Verif.BTree.Prim

/-! Prefix-sum trees: building, searching, updating and validating them. -/

namespace SM.BT

variable {K V : Type}

/-- A world with other prefix-sum fields. -/
def World.setPs (w : World K V) (f : Id → PSum) : World K V := { w with ps := f }

section
variable (w : World K V) (f : Id → PSum)
@[simp] theorem setPs_node : (w.setPs f).node = w.node := rfl
@[simp] theorem setPs_ps : (w.setPs f).ps = f := rfl
@[simp] theorem setPs_lru : (w.setPs f).lru = w.lru := rfl
@[simp] theorem setPs_ctl : (w.setPs f).ctl = w.ctl := rfl
@[simp] theorem setPs_trees : (w.setPs f).trees = w.trees := rfl
@[simp] theorem setPs_next : (w.setPs f).next = w.next := rfl
@[simp] theorem setPs_disk : (w.setPs f).disk = w.disk := rfl
@[simp] theorem setPs_env : (w.setPs f).env = w.env := rfl
@[simp] theorem setPs_log : (w.setPs f).log = w.log := rfl
@[simp] theorem setPs_setPs (g : Id → PSum) : (w.setPs f).setPs g = w.setPs g := rfl
theorem setP_eq (i : Id) (p : PSum) : w.setP i p = w.setPs (upd w.ps i p) := rfl
theorem setPs_self : w.setPs w.ps = w := rfl
end

theorem Calm.setPs (τ : TreeId) (w : World K V) (f : Id → PSum) : Calm τ w (w.setPs f) :=
  .of (le_refl _) rfl rfl rfl rfl rfl rfl

/-- The nodes of a prefix-sum tree. -/
def PT.ids (b : PT) : List Id := b.list.map Prod.fst

@[simp] theorem PT.ids_node (l : PT) (i : Id) (c x) (r : PT) : (PT.node l i c x r).ids = l.ids ++ i :: r.ids := by
  simp [PT.ids, PT.list]
@[simp] theorem PT.ids_nil : PT.nil.ids = [] := rfl

theorem PT.Rep.congr' {ps ps' : Id → PSum} {b : PT} {p : Option Id} (h : b.Rep ps p)
    (e : ∀ i ∈ b.ids, ps' i = ps i) : b.Rep ps' p := h.congr e

theorem PT.sum_eq (b : PT) : b.sum = (b.list.map fun p => p.2.1).sum := by
  induction b with
  | nil => rfl
  | node l i c x r hl hr => simp [PT.sum, PT.list, hl, hr]; omega

/-- Give the top another parent. -/
theorem PT.Rep.reparent {ps : Id → PSum} {b : PT} {p : Option Id} (h : b.Rep ps p) {r : Id}
    (hr : b.root? = some r) (hn : b.ids.Nodup) (p' : Option Id) :
    b.Rep (upd ps r { ps r with parent := p' }) p' := by
  cases b with
  | nil => trivial
  | node l i c x r' =>
    simp only [root?, Option.some.injEq] at hr; subst hr
    simp only [ids_node, List.nodup_append, List.nodup_cons, List.mem_cons] at hn
    simp only [Rep] at h ⊢
    refine ⟨by simp [upd, h.1], h.2.1.congr' fun j hj => ?_, h.2.2.congr' fun j hj => ?_⟩
    · rw [upd_ne]; exact hn.2.2 j hj i (.inl rfl)
    · rw [upd_ne]; rintro rfl; exact hn.2.1.1 hj

theorem PT.Rep.top {ps : Id → PSum} {b : PT} {p : Option Id} (h : b.Rep ps p) {r : Id}
    (hr : b.root? = some r) : (ps r).items = b.sum ∧ (ps r).parent = p := by
  cases b with
  | nil => simp [root?] at hr
  | node l i c x r' =>
    simp only [root?, Option.some.injEq] at hr; subst hr
    simp [h.1, sum]

theorem PT.root?_of_ne {b : PT} (h : b.list ≠ []) : ∃ r, b.root? = some r ∧ b ≠ .nil := by
  cases b with
  | nil => exact absurd rfl h
  | node l i c x r => exact ⟨i, rfl, by simp⟩

theorem PT.eq_nil {b : PT} (h : b.list = []) : b = .nil := by
  cases b with
  | nil => rfl
  | node => simp [list] at h

/-! ### arrangePrefixSumTree -/

theorem arrangeRec_run : ∀ (fuel : Nat) (q : List (Id × Nat × Int)) (w : World K V), q ≠ [] → q.length ≤ fuel →
    (q.map Prod.fst).Nodup →
    (∀ p ∈ q, w.ps p.1 = { items := p.2.1, kvIndex := p.2.2, parent := none, left := none, right := none }) →
    ∃ (r : Id) (f : Id → PSum) (b : PT), arrangeRec fuel (q.map Prod.fst) w = (.ok r, w.setPs f) ∧ b.root? = some r ∧ b.list = q ∧
      b.Rep f none ∧ b.Shape ∧ ∀ i, i ∉ q.map Prod.fst → f i = w.ps i := by
  intro fuel
  induction fuel with
  | zero => intro q w h1 h2; cases q <;> simp_all
  | succ fuel ih =>
    intro q w hne hlen hnd hps
    have hmid : q.length / 2 < q.length := by
      have : 0 < q.length := List.length_pos_iff.2 hne
      omega
    obtain ⟨⟨m, n, x⟩, hm⟩ : ∃ p, q[q.length / 2]? = some p := ⟨_, List.getElem?_eq_getElem hmid⟩
    -- split the slice
    generalize hk : q.length / 2 = k at *
    have hsplit : q = q.take k ++ (m, n, x) :: q.drop (k + 1) := by
      have := List.getElem?_eq_some_iff.1 hm
      obtain ⟨h1, h2⟩ := this
      conv_lhs => rw [← List.take_append_drop k q]
      rw [List.drop_eq_getElem_cons h1, h2]
    generalize hql : q.take k = ql at *
    generalize hqr : q.drop (k + 1) = qr at *
    have hlql : ql.length = k := by rw [← hql, List.length_take]; omega
    have hlqr : qr.length = q.length - (k + 1) := by rw [← hqr, List.length_drop]
    have hnd' : (ql.map Prod.fst ++ m :: qr.map Prod.fst).Nodup := by
      rw [hsplit] at hnd; simpa using hnd
    simp only [List.nodup_append, List.nodup_cons, List.mem_cons] at hnd'
    obtain ⟨hndl, ⟨hmr, hndr⟩, hdis⟩ := hnd'
    have hml : m ∉ ql.map Prod.fst := fun h => hdis m h m (.inl rfl) rfl
    have hpm : w.ps m = { items := n, kvIndex := x, parent := none, left := none, right := none } :=
      hps (m, n, x) (by rw [hsplit]; simp)
    have htake : (q.map Prod.fst).take k = ql.map Prod.fst := by rw [← List.map_take, hql]
    have hdrop : (q.map Prod.fst).drop (k + 1) = qr.map Prod.fst := by rw [← List.map_drop, hqr]
    -- left part
    have hL : ∃ (f : Id → PSum) (bl : PT), (∀ (β : Type) (cont : Unit → M K V β),
        ((if 0 < k then do
            let l ← arrangeRec fuel ((q.map Prod.fst).take k)
            modP m fun p => { p with left := some l }
            modP l fun p => { p with parent := some m }
            let pl ← getP l
            modP m fun p => { p with items := p.items + pl.items }
          else pure ()) >>= cont) w = cont () (w.setPs f)) ∧ bl.list = ql ∧ bl.Rep f (some m) ∧ bl.Shape ∧
        f m = { items := bl.sum + n, kvIndex := x, parent := none, left := bl.root?, right := none } ∧
        ∀ i, i ≠ m → i ∉ ql.map Prod.fst → f i = w.ps i := by
      by_cases h0 : 0 < k
      · have hqlne : ql ≠ [] := by intro h; rw [h] at hlql; simp at hlql; omega
        obtain ⟨l, f, b, h1, h2, h3, h4, h5, h6⟩ := ih ql w hqlne (by omega) hndl
          (fun p hp => hps p (by rw [hsplit]; simp [hp]))
        have hlm : l ≠ m := by
          have : l ∈ ql.map Prod.fst := by rw [← h3]; exact PT.root?_mem h2
          rintro rfl; exact hml this
        have hfm : f m = w.ps m := h6 m hml
        have hbids : b.ids = ql.map Prod.fst := by rw [PT.ids, h3]
        have ht := h4.top h2
        refine ⟨upd (upd f l { f l with parent := some m }) m
            { items := n + b.sum, kvIndex := x, parent := none, left := some l, right := none },
          b, ?_, h3, ?_, h5, ?_, ?_⟩
        · intro β cont
          simp only [h0, if_true, htake]
          rw [bind_assoc_run, bind_ok h1]
          simp only [modP_bind, getP_bind, bind_assoc_run, setPs_ps, upd_same, hfm, hpm, upd_ne _ _ hlm]
          congr 1
          simp only [World.setPs]
          congr 1
          funext j
          by_cases hj : j = m
          · subst hj; simp [upd, ht.1, Ne.symm hlm]
          · simp [upd, hj]
        · refine (h4.reparent h2 (by rw [hbids]; exact hndl) (some m)).congr' fun i hi => ?_
          rw [upd_ne]; rintro rfl; exact hml (hbids ▸ hi)
        · simp [upd_same, h2, Nat.add_comm]
        · intro i hi hi'
          rw [upd_ne _ _ hi, upd_ne, h6 i hi']
          rintro rfl
          exact hi' (by rw [← h3]; exact PT.root?_mem h2)
      · have : ql = [] := List.length_eq_zero_iff.1 (by omega)
        refine ⟨w.ps, .nil, ?_, by simp [this, PT.list], trivial, trivial, by simp [hpm, PT.sum, PT.root?], fun _ _ _ => rfl⟩
        intro β cont
        simp only [h0, if_false]; rfl
    obtain ⟨f1, bl, hrun1, hl1, hl2, hl3, hl4, hl5⟩ := hL
    -- right part
    have hbl : bl.ids = ql.map Prod.fst := by rw [PT.ids, hl1]
    have hR : ∃ (f : Id → PSum) (br : PT), (∀ (β : Type) (cont : Unit → M K V β),
        ((if k + 1 < (q.map Prod.fst).length then do
            let r ← arrangeRec fuel ((q.map Prod.fst).drop (k + 1))
            modP m fun p => { p with right := some r }
            modP r fun p => { p with parent := some m }
            let pr ← getP r
            modP m fun p => { p with items := p.items + pr.items }
          else pure ()) >>= cont) (w.setPs f1) = cont () (w.setPs f)) ∧ br.list = qr ∧ br.Rep f (some m) ∧ br.Shape ∧
        f m = { items := bl.sum + n + br.sum, kvIndex := x, parent := none, left := bl.root?, right := br.root? } ∧
        ∀ i, i ≠ m → i ∉ qr.map Prod.fst → f i = f1 i := by
      by_cases h0 : k + 1 < (q.map Prod.fst).length
      · have h0' : k + 1 < q.length := by simpa using h0
        have hqrne : qr ≠ [] := by intro h; rw [h] at hlqr; simp at hlqr; omega
        obtain ⟨l, f, b, h1, h2, h3, h4, h5, h6⟩ := ih qr (w.setPs f1) hqrne (by omega) hndr
          (fun p hp => by
            rw [setPs_ps, hl5 p.1]
            · exact hps p (by rw [hsplit]; simp [hp])
            · rintro h; exact hmr (h ▸ List.mem_map_of_mem hp)
            · intro h; exact hdis _ h p.1 (.inr (List.mem_map_of_mem hp)) rfl)
        have hlm : l ≠ m := by
          have : l ∈ qr.map Prod.fst := by rw [← h3]; exact PT.root?_mem h2
          rintro rfl; exact hmr this
        have hfm : f m = f1 m := h6 m hmr
        have hbids : b.ids = qr.map Prod.fst := by rw [PT.ids, h3]
        have ht := h4.top h2
        refine ⟨upd (upd f l { f l with parent := some m }) m
            { items := bl.sum + n + b.sum, kvIndex := x, parent := none, left := bl.root?, right := some l },
          b, ?_, h3, ?_, h5, ?_, ?_⟩
        · intro β cont
          simp only [h0, if_true, hdrop]
          rw [bind_assoc_run, bind_ok h1]
          simp only [modP_bind, getP_bind, bind_assoc_run, setPs_setPs, setPs_ps, upd_same, hfm, hl4, upd_ne _ _ hlm]
          congr 1
          simp only [World.setPs]
          congr 1
          funext j
          by_cases hj : j = m
          · subst hj; simp [upd, ht.1, Ne.symm hlm]
          · simp [upd, hj]
        · refine (h4.reparent h2 (by rw [hbids]; exact hndr) (some m)).congr' fun i hi => ?_
          rw [upd_ne]; rintro rfl; exact hmr (hbids ▸ hi)
        · simp [upd_same, h2]
        · intro i hi hi'
          rw [upd_ne _ _ hi, upd_ne, h6 i hi']; rfl
          rintro rfl
          exact hi' (by rw [← h3]; exact PT.root?_mem h2)
      · have : qr = [] := List.length_eq_zero_iff.1 (by simp at h0; omega)
        refine ⟨f1, .nil, ?_, by simp [this, PT.list], trivial, trivial, by simp [hl4, PT.sum, PT.root?], fun _ _ _ => rfl⟩
        intro β cont
        simp only [h0, if_false]; rfl
    obtain ⟨f2, br, hrun2, hr1, hr2, hr3, hr4, hr5⟩ := hR
    refine ⟨m, f2, .node bl m n x br, ?_, rfl, ?_, ?_, ?_, ?_⟩
    · have e1 : (q.map Prod.fst).length / 2 = k := by simpa using hk
      have e2 : (q.map Prod.fst)[k]? = some m := by simp [hm]
      simp only [arrangeRec, e1, e2, deref_some_bind]
      rw [hrun1, hrun2]; rfl
    · rw [PT.list, hl1, hr1, ← hsplit]
    · refine ⟨hr4, hl2.congr' fun i hi => hr5 i ?_ ?_, hr2⟩
      · rintro rfl; exact hml (hbl ▸ hi)
      · intro h; exact hdis i (hbl ▸ hi) i (.inr h) rfl
    · refine ⟨fun h1 h2 => ?_, hl3, hr3⟩
      have h3 : qr ≠ [] := by rw [← hr1]; intro h; exact h1 (PT.eq_nil h)
      have h4 : ql = [] := by rw [← hl1, h2]; rfl
      rw [h4] at hlql
      have := List.length_pos_iff.2 h3
      simp at hlql; omega
    · intro i hi
      have hi' : i ∉ ql.map Prod.fst ∧ i ≠ m ∧ i ∉ qr.map Prod.fst := by
        rw [hsplit] at hi
        simp only [List.map_append, List.map_cons, List.mem_append, List.mem_cons, not_or] at hi
        exact hi
      rw [hr5 i hi'.2.1 hi'.2.2, hl5 i hi'.2.1 hi'.1]

theorem arrangeLoop_run {C : Cmp K} {node : Id} {cs : List (K × Id)} : ∀ (k i : Nat) (w : World K V),
    KvIs C (w.node node).kv (innerKv cs) → i + k = cs.length → ((cs.drop i).map Prod.snd).Nodup →
    ∃ f : Id → PSum, arrangeLoop node i k w = (.ok ((cs.drop i).map Prod.snd), w.setPs f) ∧
      (∀ p ∈ idxFrom (i : Int) ((cs.drop i).map fun p => (p.2, (w.node p.2).items)),
        f p.1 = { items := p.2.1, kvIndex := p.2.2, parent := none, left := none, right := none }) ∧
      ∀ j, j ∉ (cs.drop i).map Prod.snd → f j = w.ps j := by
  intro k
  induction k with
  | zero =>
    intro i w _ hi _
    have : cs.drop i = [] := List.drop_eq_nil_of_le (by omega)
    exact ⟨w.ps, by simp [arrangeLoop, this, setPs_self], by simp [this, idxFrom], fun _ _ => rfl⟩
  | succ k ih =>
    intro i w hkv hi hn
    have hlt : i < cs.length := by omega
    have hd : cs.drop i = cs[i] :: cs.drop (i + 1) := List.drop_eq_getElem_cons hlt
    obtain ⟨key, c, hkc⟩ : ∃ key c, cs[i] = (key, c) := ⟨_, _, rfl⟩
    rw [hkc] at hd
    rw [hd] at hn ⊢
    simp only [List.map_cons, List.nodup_cons] at hn
    have hg : cs[i]? = some (key, c) := by rw [List.getElem?_eq_getElem hlt, hkc]
    obtain ⟨f, h1, h2, h3⟩ := ih (i + 1)
      (w.setP c { items := (w.node c).items, kvIndex := i, parent := none, left := none, right := none }) hkv (by omega) hn.2
    refine ⟨f, ?_, ?_, ?_⟩
    · simp only [arrangeLoop, bind_ok (kvChildOk_run hkv hg 2627)]
      rw [show (resetPs c (i : Int) : M K V Unit) = getN c >>= fun n => modP c fun _ =>
          { items := n.items, kvIndex := i, parent := none, left := none, right := none } from rfl]
      simp only [bind_assoc_run, getN_bind]
      rw [bind_ok (modP_run _ _ _), bind_ok h1]
      rfl
    · intro p hp
      simp only [List.map_cons, idxFrom, List.mem_cons] at hp
      rcases hp with rfl | hp
      · rw [h3 c hn.1]; simp [upd_same]
      · exact h2 p (by simpa using hp)
    · intro j hj
      simp only [List.map_cons, List.mem_cons, not_or] at hj
      rw [h3 j hj.2]; simp [upd_ne _ _ hj.1]

/-- Total of counts. -/
def total (q : List (Id × Nat)) : Nat := (q.map Prod.snd).sum

theorem idxFrom_total (x : Int) (q : List (Id × Nat)) : ((idxFrom x q).map fun p => p.2.1).sum = total q := by
  induction q generalizing x with
  | nil => rfl
  | cons p q ih => obtain ⟨i, c⟩ := p; simp [idxFrom, total, ih]

theorem setN_setN (w : World K V) (i : Id) (a b : NodeS K V) : (w.setN i a).setN i b = w.setN i b := by
  simp only [World.setN]
  congr 1
  funext j
  by_cases h : j = i <;> simp [upd, h]

/-- What `arrangePrefixSumTree` does. -/
theorem arrange_core {C : Cmp K} {w : World K V} {node c0 : Id} {cs : List (K × Id)}
    (hb5 : KvIs C (w.node node).kv (innerKv cs)) (hb4 : (w.node node).left = some c0)
    (hn : (c0 :: cs.map Prod.snd).Nodup) {q : List (Id × Nat)} (hq : q.map Prod.fst = c0 :: cs.map Prod.snd)
    (hi : ∀ p ∈ q, (w.node p.1).items = p.2) :
    ∃ (g : Id → PSum) (r : Id), arrangePrefixSumTree node w =
        (.ok (), (w.setPs g).setN node { w.node node with psRoot := some r, items := total q }) ∧
      PSOK g (some r) q ∧ ∀ i, i ∉ c0 :: cs.map Prod.snd → g i = w.ps i := by
  have hqe : q = (c0, (w.node c0).items) :: cs.map fun p => (p.2, (w.node p.2).items) := by
    have : q = (q.map Prod.fst).map fun i => (i, (w.node i).items) := by
      rw [List.map_map]
      conv_lhs => rw [← List.map_id q]
      exact List.map_congr_left fun p hp => by simp [hi p hp]
    rw [this, hq]; simp
  let w1 := w.setP c0 { items := (w.node c0).items, kvIndex := -1, parent := none, left := none, right := none }
  have hn' : ((cs.drop 0).map Prod.snd).Nodup := by simpa using (List.nodup_cons.1 hn).2
  obtain ⟨f, h1, h2, h3⟩ := arrangeLoop_run (C := C) (node := node) (cs := cs) cs.length 0 w1 hb5 (by omega) hn'
  simp only [List.drop_zero] at h1 h2 h3
  have hfst : (idxFrom (-1) q).map Prod.fst = c0 :: cs.map Prod.snd := by rw [idxFrom_fst, hq]
  obtain ⟨r, g, b, g1, g2, g3, g4, g5, g6⟩ := arrangeRec_run (c0 :: cs.map Prod.snd).length (idxFrom (-1) q) (w1.setPs f)
    (by rw [hqe]; simp [idxFrom]) (by rw [← List.length_map (f := Prod.fst), hfst])
    (by rw [hfst]; exact hn)
    (fun p hp => by
      rw [hqe] at hp
      simp only [idxFrom, List.mem_cons] at hp
      rcases hp with rfl | hp
      · rw [setPs_ps, h3 c0 (List.nodup_cons.1 hn).1]; simp [w1, upd_same]
      · exact h2 p hp)
  rw [hfst] at g1 g6
  have ht := g4.top g2
  have hsum : b.sum = total q := by rw [PT.sum_eq, g3, idxFrom_total]
  refine ⟨g, r, ?_, ⟨b, g3, g4, g2.symm, g5⟩, ?_⟩
  · unfold arrangePrefixSumTree
    rw [bind_ok (kvLen_run hb5)]
    simp only [getN_bind, hb4, deref_some_bind]
    rw [show (resetPs c0 (-1) : M K V Unit) = getN c0 >>= fun n => modP c0 fun _ =>
          { items := n.items, kvIndex := -1, parent := none, left := none, right := none } from rfl]
    simp only [bind_assoc_run, getN_bind]
    rw [bind_ok (modP_run _ _ _)]
    have hlen : (innerKv cs : List (K × Val V)).length = cs.length := by simp [innerKv]
    rw [hlen]
    simp only [Int.toNat_natCast]
    rw [bind_ok h1, bind_ok g1, bind_ok (modN_run _ _ _)]
    simp only [getP_bind]
    rw [modN_run]
    simp only [setN_setN, setN_ps, setPs_ps, ht.1, setN_node, upd_same, hsum]
    rw [← hb4]
    rfl
  · intro i hi
    rw [g6 i hi, setPs_ps, h3 i (fun h => hi (List.mem_cons_of_mem _ h))]
    simp only [w1, setP_ps]
    rw [upd_ne]; rintro rfl; exact hi List.mem_cons_self

/-- `arrangePrefixSumTree`: the prefix-sum tree is rebuilt and the node's count set. -/
theorem arrange_run (τ : TreeId) {w : World K V} {c : Cell K V} {S : Multiset (Cell K V)} {X : Multiset Id} {items : Nat} {c0 : Id}
    {cs : List (K × Id)} {q0 : Option (List (Id × Nat))} (h : St w (c ::ₘ S) X) (hb : c.body = .inner items c0 cs q0)
    {q : List (Id × Nat)} (hq : q.map Prod.fst = c0 :: cs.map Prod.snd) (hi : ∀ p ∈ q, (w.node p.1).items = p.2) :
    ∃ w', arrangePrefixSumTree c.id w = (.ok (), w') ∧
      St w' ({ c with body := .inner (total q) c0 cs (some q) } ::ₘ S) X ∧ w'.lru = w.lru ∧ Calm τ w w' ∧
      (∀ i, i ≠ c.id → w'.node i = w.node i) := by
  have hc := h.head
  have hbody := hc.body
  rw [hb] at hbody
  obtain ⟨hb1, hb2, hb3, hb4, hb5, -⟩ := hbody
  have hn : (c0 :: cs.map Prod.snd).Nodup := by
    have := h.kids
    simp only [kidsOf_cons, hb, Body.kids] at this
    exact Multiset.coe_nodup.1 (Multiset.nodup_add.1 (Multiset.nodup_add.1 this).1).1
  obtain ⟨g, r, h1, h2, h3⟩ := arrange_core hb5 hb4 hn hq hi
  refine ⟨_, h1, ?_, rfl, ?_, ?_⟩
  · refine h.set rfl (by simp [hb, Body.kids]) (fun i hi => by simp [upd_ne _ _ hi]) (fun i hi => h3 i (by rw [hb] at hi; exact hi)) rfl ?_
    refine ⟨?_, ?_, ?_, ?_, ?_, ?_⟩ <;> simp only [setN_node, upd_same]
    · exact hc.tree
    · exact hc.parent
    · exact hc.root
    · exact hc.ref
    · exact hc.dirty
    · refine ⟨hb1, hb2, rfl, hb4, hb5, fun q' hq' => ?_⟩
      cases hq'
      exact ⟨hq, h2⟩
  · exact (Calm.setPs τ w g).trans (Calm.setN τ _ _ _)
  · intro i hi; simp [upd_ne _ _ hi]

/-! ### Searching -/

/-- Total of the counts of a listing. -/
def tot (l : List (Id × Nat × Int)) : Nat := (l.map fun p => p.2.1).sum

@[simp] theorem tot_nil : tot [] = 0 := rfl
@[simp] theorem tot_cons (p : Id × Nat × Int) (l) : tot (p :: l) = p.2.1 + tot l := by simp [tot]
@[simp] theorem tot_append (a b : List (Id × Nat × Int)) : tot (a ++ b) = tot a + tot b := by simp [tot]

theorem PT.sum_tot (b : PT) : b.sum = tot b.list := b.sum_eq

theorem leftItems_run {w : World K V} {b : PT} {p : Option Id} (h : b.Rep w.ps p) :
    (match b.root? with
      | none => (pure 0 : M K V Nat)
      | some l => do return (← getP l).items) w = (.ok b.sum, w) := by
  cases b with
  | nil => rfl
  | node l i c x r =>
    simp only [PT.root?, getP_bind, pure_run]
    rw [h.1]; rfl

theorem psFind_run {w : World K V} : ∀ {b : PT} {p : Option Id} {r : Id} {k fuel : Nat}, b.Rep w.ps p →
    (∀ x ∈ b.list, (w.node x.1).items = x.2.1) → b.root? = some r → k < b.sum → b.list.length ≤ fuel →
    ∃ pre i c x post, b.list = pre ++ (i, c, x) :: post ∧ tot pre ≤ k ∧ k < tot pre + c ∧
      psFind fuel r k w = (.ok (i, k - tot pre), w) := by
  intro b
  induction b with
  | nil => intro p r k fuel _ _ hr; simp [PT.root?] at hr
  | node l i c x r ihl ihr =>
    intro p r' k fuel h hi hr hk hf
    simp only [PT.root?, Option.some.injEq] at hr; subst hr
    obtain ⟨h1, h2, h3⟩ := h
    simp only [PT.list, List.length_append, List.length_cons] at hf
    obtain ⟨fuel, rfl⟩ : ∃ f, fuel = f + 1 := ⟨fuel - 1, by omega⟩
    have hic : (w.node i).items = c := hi (i, c, x) (by simp [PT.list])
    simp only [PT.sum] at hk
    have hstep : psFind (fuel + 1) i k w =
        (if k < l.sum then do psFind fuel (← M.deref l.root?) k
         else if k < l.sum + c then return (i, k - l.sum)
         else do psFind fuel (← M.deref r.root?) (k - (l.sum + c)) : M K V (Id × Nat)) w := by
      simp only [psFind, getP_bind, getN_bind, h1, hic]
      exact bind_ok (leftItems_run h2)
    by_cases hl : k < l.sum
    · obtain ⟨rl, hrl, -⟩ := PT.root?_of_ne (b := l) (by intro h0; rw [PT.sum_tot, h0] at hl; simp at hl)
      obtain ⟨pre, j, c', x', post, e1, e2, e3, e4⟩ := ihl h2 (fun y hy => hi y (by simp [PT.list, hy])) hrl hl
        (fuel := fuel) (by omega)
      refine ⟨pre, j, c', x', post ++ (i, c, x) :: r.list, by simp [PT.list, e1], e2, e3, ?_⟩
      rw [hstep]; simp only [hl, if_true, hrl, deref_some_bind, e4]
    · by_cases hm : k < l.sum + c
      · refine ⟨l.list, i, c, x, r.list, rfl, by rw [← PT.sum_tot]; omega, by rw [← PT.sum_tot]; omega, ?_⟩
        rw [hstep]; simp only [hl, hm, if_true, if_false, ← PT.sum_tot, pure_run]
      · obtain ⟨rr, hrr, -⟩ := PT.root?_of_ne (b := r) (by
          intro h0; have := PT.sum_tot r; rw [h0] at this; simp at this; omega)
        obtain ⟨pre, j, c', x', post, e1, e2, e3, e4⟩ := ihr h3 (fun y hy => hi y (by simp [PT.list, hy])) hrr
          (k := k - (l.sum + c)) (by omega) (fuel := fuel) (by omega)
        refine ⟨l.list ++ (i, c, x) :: pre, j, c', x', post, by simp [PT.list, e1], ?_, ?_, ?_⟩
        · simp [← PT.sum_tot]; omega
        · simp [← PT.sum_tot]; omega
        · rw [hstep]; simp only [hl, hm, if_false, hrr, deref_some_bind, e4]
          congr 3
          simp [← PT.sum_tot]; omega

/-- What `psClimb` does after a step. -/
def psUp (fuel : Nat) (r : Id) (stack : List Bool) : M K V (Id × List Bool) := do
  match (← getP r).parent with
  | none => return (r, stack)
  | some _ => psClimb fuel r stack

theorem leftSum_run {w : World K V} {l r : PT} {i : Id} {c : Nat} {x : Int} {p : Option Id}
    (h : (PT.node l i c x r).Rep w.ps p) : leftSum i w = (.ok l.sum, w) := by
  have := leftItems_run h.2.1
  simp only [leftSum, getP_bind, h.1]
  exact this

/-- Climb and descent from a node of the tree. -/
theorem psPath_run {w : World K V} : ∀ {b : PT} {p : Option Id} {r : Id}, b.Rep w.ps p → b.ids.Nodup →
    (∀ x ∈ b.list, (w.node x.1).items = x.2.1) → b.root? = some r →
    ∀ {pre : List (Id × Nat × Int)} {c : Id} {n : Nat} {x : Int} {post}, b.list = pre ++ (c, n, x) :: post →
    ∃ (path : List Bool) (s t : Nat), tot pre = s + t ∧ path.length < b.list.length ∧
      (path = [] → c = r) ∧ (path ≠ [] → c ≠ r) ∧ leftSum c w = (.ok t, w) ∧
      (∀ delta, psDescend path r delta w = (.ok (c, delta + s), w)) ∧
      (path ≠ [] → ∀ fuel stack, psClimb (fuel + path.length) c stack w = psUp fuel r (path ++ stack) w) := by
  intro b
  induction b with
  | nil => intro p r _ _ _ hr; simp [PT.root?] at hr
  | node l i ci xi r ihl ihr =>
    intro p r' h hnd hi hr pre c n x post hl
    simp only [PT.root?, Option.some.injEq] at hr; subst hr
    have h' := h
    obtain ⟨h1, h2, h3⟩ := h
    simp only [PT.ids_node, List.nodup_append, List.nodup_cons, List.mem_cons] at hnd
    obtain ⟨hn1, ⟨hn2, hn3⟩, hn4⟩ := hnd
    have hic : (w.node i).items = ci := hi (i, ci, xi) (by simp [PT.list])
    simp only [PT.list] at hl
    rcases List.append_eq_append_iff.1 hl with ⟨a, ha1, ha2⟩ | ⟨a, ha1, ha2⟩
    · -- the node itself, or to the right
      cases a with
      | nil =>
        simp only [List.append_nil] at ha1
        simp only [List.nil_append, List.cons.injEq, Prod.mk.injEq] at ha2
        obtain ⟨⟨rfl, rfl, rfl⟩, rfl⟩ := ha2
        exact ⟨[], 0, l.sum, by rw [ha1, PT.sum_tot]; omega, by simp only [PT.list, List.length_append, List.length_cons, List.length_nil]; omega, fun _ => rfl, by simp,
          leftSum_run h', fun delta => rfl, by simp⟩
      | cons y a =>
        simp only [List.cons_append, List.cons.injEq] at ha2
        obtain ⟨rfl, ha2⟩ := ha2
        obtain ⟨rr, hrr, -⟩ := PT.root?_of_ne (b := r) (by rw [ha2]; simp)
        obtain ⟨path, s, t, e1, e2, e3, e3', e4, e5, e6⟩ := ihr h3 hn3 (fun y hy => hi y (by simp [PT.list, hy])) hrr ha2
        have hci : c ≠ i := by
          rintro rfl; exact hn2 (by rw [PT.ids, ha2]; simp)
        have hlr : l.root? ≠ some rr := by
          intro h
          exact hn4 rr (PT.root?_mem h) rr (.inr (PT.root?_mem hrr)) rfl
        refine ⟨true :: path, l.sum + ci + s, t, ?_, ?_, by simp, fun _ => hci, e4, ?_, ?_⟩
        · rw [ha1]; simp [← PT.sum_tot, e1]; omega
        · simp [PT.list]; omega
        · intro delta
          simp only [psDescend]
          rw [bind_ok (leftSum_run h')]
          simp only [getN_bind, getP_bind, h1, hrr, deref_some_bind, e5, hic]
          congr 3; omega
        · intro _ fuel stack
          have key : ∀ stack, psClimb (fuel + 1) rr stack w = psUp fuel i (true :: stack) w := by
            intro stack
            have hp := (h3.top hrr).2
            simp only [psClimb, getP_bind, hp, deref_some_bind, psUp]
            have : (if (w.ps i).left = some rr then false else true) = true := by
              rw [h1]; simp [hlr]
            rw [this]
            cases (w.ps i).parent <;> rfl
          by_cases hpath : path = []
          · subst hpath
            rw [e3 rfl]
            exact key stack
          · have := e6 hpath (fuel + 1) stack
            rw [show fuel + (true :: path).length = fuel + 1 + path.length by simp; omega, this]
            have hp := (h3.top hrr).2
            rw [psUp]
            simp only [getP_bind, hp, key]
            rfl
    · -- to the left
      cases a with
      | nil =>
        simp only [List.append_nil] at ha1
        simp only [List.nil_append, List.cons.injEq, Prod.mk.injEq] at ha2
        obtain ⟨⟨rfl, rfl, rfl⟩, rfl⟩ := ha2
        exact ⟨[], 0, l.sum, by rw [← ha1, PT.sum_tot]; omega, by simp only [PT.list, List.length_append, List.length_cons, List.length_nil]; omega, fun _ => rfl, by simp,
          leftSum_run h', fun delta => rfl, by simp⟩
      | cons y a =>
        simp only [List.cons_append, List.cons.injEq] at ha2
        obtain ⟨rfl, ha2⟩ := ha2
        obtain ⟨rl, hrl, -⟩ := PT.root?_of_ne (b := l) (by rw [ha1]; simp)
        obtain ⟨path, s, t, e1, e2, e3, e3', e4, e5, e6⟩ := ihl h2 hn1 (fun y hy => hi y (by simp [PT.list, hy])) hrl ha1
        have hci : c ≠ i := by
          rintro rfl; exact hn4 c (by rw [PT.ids, ha1]; simp) c (.inl rfl) rfl
        refine ⟨false :: path, s, t, e1, ?_, by simp, fun _ => hci, e4, ?_, ?_⟩
        · simp [PT.list]; omega
        · intro delta
          simp only [psDescend, getP_bind, h1, hrl, deref_some_bind, e5]
        · intro _ fuel stack
          have key : ∀ stack, psClimb (fuel + 1) rl stack w = psUp fuel i (false :: stack) w := by
            intro stack
            have hp := (h2.top hrl).2
            simp only [psClimb, getP_bind, hp, deref_some_bind, psUp]
            have : (if (w.ps i).left = some rl then false else true) = false := by
              rw [h1]; simp [hrl]
            rw [this]
            cases (w.ps i).parent <;> rfl
          by_cases hpath : path = []
          · subst hpath
            rw [e3 rfl]
            exact key stack
          · have := e6 hpath (fuel + 1) stack
            rw [show fuel + (false :: path).length = fuel + 1 + path.length by simp; omega, this]
            have hp := (h2.top hrl).2
            rw [psUp]
            simp only [getP_bind, hp, key]
            rfl

theorem psDelta_run {w : World K V} {b : PT} (h : b.Rep w.ps none) (hn : b.ids.Nodup)
    (hi : ∀ x ∈ b.list, (w.node x.1).items = x.2.1) {node : Id} (hr : (w.node node).psRoot = b.root?)
    {pre : List (Id × Nat × Int)} {c : Id} {n : Nat} {x : Int} {post} (hl : b.list = pre ++ (c, n, x) :: post)
    {fuel : Nat} (hf : b.list.length ≤ fuel) (delta : Nat) :
    psDelta fuel node c delta w = (.ok (c, delta + tot pre), w) := by
  obtain ⟨r, hrr, -⟩ := PT.root?_of_ne (b := b) (by rw [hl]; simp)
  obtain ⟨path, s, t, e1, e2, e3, e3', e4, e5, e6⟩ := psPath_run h hn hi hrr hl
  simp only [psDelta, getN_bind, hr, hrr, Option.some.injEq]
  by_cases hp : path = []
  · have hcr := e3 hp
    subst hp
    have hs : s = 0 := by
      have := e5 0
      simp only [psDescend, pure_run, Prod.mk.injEq, Out.ok.injEq] at this
      omega
    subst hcr
    simp only [if_true]
    rw [bind_ok e4, e1, hs]
    simp
  · rw [if_neg (fun h => e3' hp h.symm)]
    have := e6 hp (fuel - path.length) []
    rw [show fuel - path.length + path.length = fuel by omega] at this
    have hpar := (h.top hrr).2
    have h2 : psClimb fuel c [] w = (.ok (r, path), w) := by
      rw [this, psUp]
      simp only [getP_bind, hpar, List.append_nil, pure_run]
    rw [bind_ok h2]
    simp only
    rw [bind_ok (e5 delta)]
    simp only
    rw [bind_ok e4, e1]
    simp only [pure_run]
    congr 3; omega

/-! ### Updating -/

theorem addDelta_of {a b : Nat} {delta : Int} (h : (b : Int) = a + delta) : addDelta a delta = b := by
  unfold addDelta sub64
  split
  · rw [if_pos (by omega)]; omega
  · omega

/-- What `updatePsUp` does after a step. -/
def psUpOn (delta : Int) (fuel : Nat) (p : Option Id) : M K V Unit :=
  match p with
  | none => pure ()
  | some q => updatePsUp delta fuel q

theorem updatePsUp_step {delta : Int} {fuel : Nat} {i : Id} {w : World K V} {n : Nat} (e : addDelta (w.ps i).items delta = n) :
    updatePsUp delta (fuel + 1) i w = psUpOn delta fuel (w.ps i).parent (w.setPs (upd w.ps i { w.ps i with items := n })) := by
  subst e
  simp only [updatePsUp, modP_bind, getP_bind, upd_same]
  cases (w.ps i).parent <;> rfl

theorem psUp_run {delta : Int} : ∀ {b : PT} {ps : Id → PSum} {p : Option Id}, b.Rep ps p → b.ids.Nodup →
    ∀ {pre : List (Id × Nat × Int)} {c : Id} {n n' : Nat} {x : Int} {post}, b.list = pre ++ (c, n, x) :: post →
    (n' : Int) = n + delta →
    ∃ (k : Nat) (ps' : Id → PSum) (b' : PT), k < b.list.length ∧ b'.list = pre ++ (c, n', x) :: post ∧ b'.Rep ps' p ∧
      b'.root? = b.root? ∧ (b.Shape → b'.Shape) ∧ (b' = .nil ↔ b = .nil) ∧ (b'.sum : Int) = b.sum + delta ∧ (∀ i, i ∉ b.ids → ps' i = ps i) ∧
      ∀ (fuel : Nat) (w : World K V), w.ps = ps → updatePsUp delta (fuel + k + 1) c w =
        psUpOn delta fuel p (w.setPs ps') := by
  intro b
  induction b with
  | nil => intro ps p _ _ pre c n n' x post h; simp [PT.list] at h
  | node l i ci xi r ihl ihr =>
    intro ps p h hnd pre c n n' x post hl hn'
    obtain ⟨h1, h2, h3⟩ := h
    simp only [PT.ids_node, List.nodup_append, List.nodup_cons, List.mem_cons] at hnd
    obtain ⟨hn1, ⟨hn2, hn3⟩, hn4⟩ := hnd
    have hil : i ∉ l.ids := fun h => hn4 i h i (.inl rfl) rfl
    have self : ∀ (pre post : List (Id × Nat × Int)), l.list = pre → r.list = post → c = i → n = ci → x = xi →
        ∃ (k : Nat) (ps' : Id → PSum) (b' : PT), k < (PT.node l i ci xi r).list.length ∧ b'.list = pre ++ (c, n', x) :: post ∧ b'.Rep ps' p ∧
      b'.root? = (PT.node l i ci xi r).root? ∧ ((PT.node l i ci xi r).Shape → b'.Shape) ∧ (b' = .nil ↔ (PT.node l i ci xi r) = .nil) ∧
      (b'.sum : Int) = (PT.node l i ci xi r).sum + delta ∧ (∀ j, j ∉ (PT.node l i ci xi r).ids → ps' j = ps j) ∧
      ∀ (fuel : Nat) (w : World K V), w.ps = ps → updatePsUp delta (fuel + k + 1) c w =
        psUpOn delta fuel p (w.setPs ps') := by
      rintro _ _ rfl rfl rfl rfl rfl
      refine ⟨0, upd ps c { ps c with items := l.sum + n' + r.sum }, .node l c n' x r, by simp [PT.list]; omega, rfl, ⟨?_, ?_, ?_⟩, rfl,
        fun h => h, by simp, by simp only [PT.sum]; omega, ?_, ?_⟩
      · rw [upd_same, h1]
      · exact h2.congr' fun j hj => upd_ne _ _ (by rintro rfl; exact hil hj)
      · exact h3.congr' fun j hj => upd_ne _ _ (by rintro rfl; exact hn2 hj)
      · intro j hj; exact upd_ne _ _ (by rintro rfl; simp at hj)
      · intro fuel w hw
        have e : addDelta (w.ps c).items delta = l.sum + n' + r.sum := by
          rw [hw, h1]; exact addDelta_of (by simp only; omega)
        rw [show fuel + 0 + 1 = fuel + 1 from rfl, updatePsUp_step e, hw, h1]
    simp only [PT.list] at hl
    rcases List.append_eq_append_iff.1 hl with ⟨a, ha1, ha2⟩ | ⟨a, ha1, ha2⟩
    · cases a with
      | nil =>
        simp only [List.append_nil] at ha1
        simp only [List.nil_append, List.cons.injEq, Prod.mk.injEq] at ha2
        exact self pre post ha1.symm ha2.2 ha2.1.1.symm ha2.1.2.1.symm ha2.1.2.2.symm
      | cons y a =>
        simp only [List.cons_append, List.cons.injEq] at ha2
        obtain ⟨rfl, ha2⟩ := ha2
        obtain ⟨k, ps1, r', e0, e1, e2, e3, e4, e4', e5, e6, e7⟩ := ihr h3 hn3 ha2 hn'
        refine ⟨k + 1, upd ps1 i { ps i with items := l.sum + ci + r'.sum }, .node l i ci xi r', ?_, ?_, ⟨?_, ?_, ?_⟩, rfl, ?_, by simp, ?_, ?_, ?_⟩
        · simp only [PT.list, List.length_append, List.length_cons]; omega
        · simp [PT.list, e1, ha1]
        · rw [upd_same, h1, e3]
        · exact h2.congr' fun j hj => by
            rw [upd_ne _ _ (by rintro rfl; exact hil hj), e6 j (fun h => hn4 j hj j (.inr h) rfl)]
        · exact e2.congr' fun j hj => upd_ne _ _ (by
            rintro rfl; refine hn2 ?_
            rw [PT.ids, e1] at hj; rw [PT.ids, ha2]; simpa using hj)
        · rintro ⟨s1, s2, s3⟩; exact ⟨fun h => s1 (fun h' => h (e4'.2 h')), s2, e4 s3⟩
        · simp only [PT.sum]; omega
        · intro j hj
          simp only [PT.ids_node, List.mem_append, List.mem_cons, not_or] at hj
          rw [upd_ne _ _ hj.2.1, e6 j hj.2.2]
        · intro fuel w hw
          have := e7 (fuel + 1) w hw
          rw [show fuel + (k + 1) + 1 = fuel + 1 + k + 1 by omega, this]
          have e : addDelta (ps1 i).items delta = l.sum + ci + r'.sum := by
            rw [e6 i hn2, h1]; exact addDelta_of (by simp only; omega)
          rw [psUpOn, updatePsUp_step (w := w.setPs ps1) e, setPs_ps, e6 i hn2, h1]; rfl
    · cases a with
      | nil =>
        simp only [List.append_nil] at ha1
        simp only [List.nil_append, List.cons.injEq, Prod.mk.injEq] at ha2
        exact self pre post ha1 ha2.2.symm ha2.1.1 ha2.1.2.1 ha2.1.2.2
      | cons y a =>
        simp only [List.cons_append, List.cons.injEq] at ha2
        obtain ⟨rfl, ha2⟩ := ha2
        obtain ⟨k, ps1, l', e0, e1, e2, e3, e4, e4', e5, e6, e7⟩ := ihl h2 hn1 ha1 hn'
        refine ⟨k + 1, upd ps1 i { ps i with items := l'.sum + ci + r.sum }, .node l' i ci xi r, ?_, ?_, ⟨?_, ?_, ?_⟩, rfl, ?_, by simp, ?_, ?_, ?_⟩
        · simp only [PT.list, List.length_append, List.length_cons]; omega
        · simp [PT.list, e1, ha2]
        · rw [upd_same, h1, e3]
        · exact e2.congr' fun j hj => upd_ne _ _ (by
            rintro rfl; refine hil ?_
            rw [PT.ids, e1] at hj; rw [PT.ids, ha1]; simpa using hj)
        · exact h3.congr' fun j hj => by
            rw [upd_ne _ _ (by rintro rfl; exact hn2 hj), e6 j (fun h => hn4 j h j (.inr hj) rfl)]
        · rintro ⟨s1, s2, s3⟩; exact ⟨fun h h' => s1 h (e4'.1 h'), e4 s2, s3⟩
        · simp only [PT.sum]; omega
        · intro j hj
          simp only [PT.ids_node, List.mem_append, List.mem_cons, not_or] at hj
          rw [upd_ne _ _ hj.2.1, e6 j hj.1]
        · intro fuel w hw
          have := e7 (fuel + 1) w hw
          rw [show fuel + (k + 1) + 1 = fuel + 1 + k + 1 by omega, this]
          have e : addDelta (ps1 i).items delta = l'.sum + ci + r.sum := by
            rw [e6 i hil, h1]; exact addDelta_of (by simp only; omega)
          rw [psUpOn, updatePsUp_step (w := w.setPs ps1) e, setPs_ps, e6 i hil, h1]; rfl

theorem idxFrom_append (x : Int) (a b : List (Id × Nat)) :
    idxFrom x (a ++ b) = idxFrom x a ++ idxFrom (x + a.length) b := by
  induction a generalizing x with
  | nil => simp [idxFrom]
  | cons p a ih => simp only [List.cons_append, idxFrom, ih, List.length_cons]; congr 2; push_cast; congr 1; omega

theorem idxFrom_length (x : Int) (q : List (Id × Nat)) : (idxFrom x q).length = q.length := by
  induction q generalizing x with
  | nil => rfl
  | cons p q ih => simp [idxFrom, ih]

theorem idxFrom_tot (x : Int) (q : List (Id × Nat)) : tot (idxFrom x q) = total q := idxFrom_total x q

/-- A child's count has changed; the counts up the parent's prefix-sum tree are put right. -/
theorem updatePsUp_run {w : World K V} {root : Option Id} {pre post : List (Id × Nat)} {c : Id} {n n' : Nat} {delta : Int}
    (h : PSOK w.ps root (pre ++ (c, n) :: post)) (hn : ((pre ++ (c, n) :: post).map Prod.fst).Nodup)
    (hd : (n' : Int) = n + delta) {fuel : Nat} (hf : pre.length + post.length + 1 ≤ fuel) :
    ∃ ps', updatePsUp delta fuel c w = (.ok (), w.setPs ps') ∧ PSOK ps' root (pre ++ (c, n') :: post) ∧
      ∀ i, i ∉ (pre ++ (c, n) :: post).map Prod.fst → ps' i = w.ps i := by
  obtain ⟨b, h1, h2, h3, h4⟩ := h
  have hids : b.ids = (pre ++ (c, n) :: post).map Prod.fst := by rw [PT.ids, h1, idxFrom_fst]
  obtain ⟨k, ps', b', e0, e1, e2, e3, e4, -, e5, e6, e7⟩ := psUp_run (K := K) (V := V) h2 (by rw [hids]; exact hn)
    (h1.trans (idxFrom_append _ _ _)) hd
  refine ⟨ps', ?_, ⟨b', ?_, e2, by rw [h3, e3], e4 h4⟩, fun i hi => e6 i (by rw [hids]; exact hi)⟩
  · have := e7 (fuel - k - 1) w rfl
    rw [h1, idxFrom_length] at e0
    simp at e0
    rw [show fuel - k - 1 + k + 1 = fuel by omega] at this
    exact this
  · rw [e1, idxFrom_append]; rfl

/-! ### Validation -/

theorem validatePrefixSum_run {w : World K V} : ∀ {b : PT} {p : Option Id} {r : Id} {fuel : Nat}, b.Rep w.ps p →
    (∀ x ∈ b.list, (w.node x.1).items = x.2.1) → b.Shape → b.root? = some r → b.list.length ≤ fuel →
    validatePrefixSum fuel r w = (.ok (), w) := by
  intro b
  induction b with
  | nil => intro p r fuel _ _ _ hr; simp [PT.root?] at hr
  | node l i c x r ihl ihr =>
    intro p r' fuel h hi hs hr hf
    simp only [PT.root?, Option.some.injEq] at hr; subst hr
    obtain ⟨h1, h2, h3⟩ := h
    obtain ⟨s1, s2, s3⟩ := hs
    simp only [PT.list, List.length_append, List.length_cons] at hf
    obtain ⟨fuel, rfl⟩ : ∃ f, fuel = f + 1 := ⟨fuel - 1, by omega⟩
    have hic : (w.node i).items = c := hi (i, c, x) (by simp [PT.list])
    simp only [validatePrefixSum, getN_bind, getP_bind, h1, hic]
    have hl : ∀ rl, l.root? = some rl → validatePrefixSum fuel rl w = (.ok (), w) ∧ (w.ps rl).items = l.sum ∧ (w.ps rl).parent = some i :=
      fun rl hrl => ⟨ihl h2 (fun y hy => hi y (by simp [PT.list, hy])) s2 hrl (by omega), h2.top hrl⟩
    cases l with
    | nil =>
      have : r = .nil := by
        cases r with
        | nil => rfl
        | node => exact absurd rfl (s1 (by simp))
      subst this
      simp [PT.root?, PT.sum]
    | node ll li lc lx lr =>
      obtain ⟨a1, a2, a3⟩ := hl li rfl
      simp only [PT.root?, bind_assoc_run, getP_bind, a3, a2, not_true_eq_false, ne_eq, if_false, pure_bind_run]
      rw [bind_ok (attempt_ok a1)]
      cases r with
      | nil =>
        simp only [PT.root?, pure_bind_run]
        rw [if_neg (by simp only [PT.sum]; omega)]; rfl
      | node rl ri rc rx rr =>
        have b2 := h3.top (r := ri) rfl
        simp only [PT.root?, pure_bind_run, bind_assoc_run, getP_bind, b2.1, b2.2, not_true_eq_false, ne_eq, if_false, deref_some_bind]
        rw [bind_ok a1, pure_bind_run]
        rw [if_neg (by simp only [PT.sum]; omega)]; rfl

end SM.BT

import Verif.BTree.Shape

/-! The background drainer of the cache, the statistics of the cache. -/

namespace SM.BT

variable {K V : Type}

/-! ### Model -/

/-- btree_api.go:33-40 `BPlusTreeCacheStats` -/
structure Stats where
  low : Nat
  high : Nat
  clean : Nat
  dirty : Nat
  hits : Nat
  misses : Nat
  deriving DecidableEq, Repr

/-- btree.go:1040-1052 `Stats` -/
def stats : M K V Stats := fun w => (.ok ⟨w.ctl.low, w.ctl.high, w.lru.clean.items, w.lru.dirty.items, w.ctl.hits, w.ctl.misses⟩, w)

/-- btree.go:2489-2504: what the drainer does while it holds the cache's mutex: it picks a node to evict, or gives up. -/
def drainerLook : M K V (Option Id) := fun w =>
  let stop : World K V := { w with ctl := { w.ctl with active := false } }
  if w.lru.clean.items = 0 ∨ w.ctl.low ≥ w.lru.clean.items + w.lru.dirty.items then (.ok none, stop)
  else
    match w.lru.clean.head with
    | none => (.ok none, stop)
    | some x => (.ok (some x), w)

/-- btree.go:2488-2519 `btreeNodeCacheDrainer` when nothing else runs: at most `n` rounds. The result tells whether it has ended. -/
def drainer (fuel : Nat) : Nat → M K V Bool
  | 0 => pure false
  | n + 1 => do
      match ← drainerLook with
      | none => return true
      | some x => do
          drainerEvict fuel x
          drainer fuel n

/-! ### Proofs -/

section
variable {w : World K V} {cfg : TreeId → Par K} {n : Nat} {s : Api.St K V} {L a b : List (Ent K V)} {LK : Multiset (Ref × DiskNode K V)}

/-- Eviction of a node: what the lists hold afterwards. -/
structure Evicted (w w' : World K V) (x : Id) : Prop where
  dirty : ∀ i, (w'.lru.el i).tag = .dirtyLRU ↔ (w.lru.el i).tag = .dirtyLRU
  clean : ∀ i, (w'.lru.el i).tag = .cleanLRU → (w.lru.el i).tag = .cleanLRU
  gone : (w'.lru.el x).tag ≠ .cleanLRU
  items : w'.lru.clean.items ≤ w.lru.clean.items
  fewer : (w.lru.el x).tag = .cleanLRU → w'.lru.clean.items < w.lru.clean.items
  same : w'.lru.dirty.items = w.lru.dirty.items
  ctl : w'.ctl = w.ctl

theorem card_sub {a b : List Id} (ha : a.Nodup) (hs : ∀ i ∈ a, i ∈ b) : a.length ≤ b.length :=
  (List.subperm_of_subset ha hs).length_le

/-- The limits, counters and drainer are left alone. -/
structure Leaves {α : Type} (m : M K V α) : Prop where
  run : ∀ w, (m w).2.ctl = w.ctl

namespace Leaves
variable {α β : Type}
theorem bind {m : M K V α} {f : α → M K V β} (h : Leaves m) (g : ∀ a, Leaves (f a)) : Leaves (m >>= f) := by
  refine ⟨fun w => ?_⟩
  show (M.bind m f w).2.ctl = w.ctl
  have := h.run w
  unfold M.bind
  rcases hm : m w with ⟨_ | _ | _, w'⟩ <;> rw [hm] at this <;> simp only at this ⊢
  · exact ((g _).run _).trans this
  · exact this
  · exact this
theorem pure (a : α) : Leaves (Pure.pure a : M K V α) := ⟨fun _ => rfl⟩
theorem throw (e : Err) : Leaves (M.throw e : M K V α) := ⟨fun _ => rfl⟩
theorem fatal : Leaves (M.fatal : M K V α) := ⟨fun _ => rfl⟩
theorem deref (a : Option α) : Leaves (M.deref a : M K V α) := by cases a <;> exact ⟨fun _ => rfl⟩
theorem must (n : Nat) (a : Option α) : Leaves (M.must n a : M K V α) := by cases a <;> exact ⟨fun _ => rfl⟩
theorem getN (i : Id) : Leaves (BT.getN i : M K V _) := ⟨fun _ => rfl⟩
theorem modN (i : Id) (f : NodeS K V → NodeS K V) : Leaves (BT.modN i f) := ⟨fun _ => rfl⟩
theorem onLru (τ : TreeId) (f : LruS → Option LruS) : Leaves (BT.onLru τ f : M K V Unit) := by
  refine ⟨fun w => ?_⟩
  unfold BT.onLru
  split
  · split <;> rfl
  · rfl
theorem kvOf (i : Id) : Leaves (BT.kvOf i : M K V _) := (getN i).bind fun _ => deref _
theorem kvLen (i : Id) : Leaves (BT.kvLen i : M K V _) := (kvOf i).bind fun _ => pure _
theorem kvGetByIndex (i : Id) (n : Int) : Leaves (BT.kvGetByIndex i n : M K V _) := (kvOf i).bind fun _ => deref _
theorem asNode (v : Val V) : Leaves (BT.asNode v : M K V _) := by cases v <;> first | exact pure _ | exact fatal
theorem kvChildOk (l : Nat) (i : Id) (n : Int) : Leaves (BT.kvChildOk l i n : M K V _) :=
  (kvGetByIndex i n).bind fun _ => (must _ _).bind fun _ => asNode _
theorem evict (τ : TreeId) (i : Id) : Leaves (BT.evict τ i : M K V _) := (onLru τ _).bind fun _ => modN i _
theorem forChildren (l : Nat) (i : Id) {f : Id → M K V Unit} (hf : ∀ c, Leaves (f c)) : ∀ (a k : Nat), Leaves (BT.forChildren l i f a k)
  | _, 0 => pure _
  | a, k + 1 => (kvChildOk l i a).bind fun c => (hf c).bind fun _ => forChildren l i hf (a + 1) k
theorem eachChild (l : Nat) (i : Id) {f : Id → M K V Unit} (hf : ∀ c, Leaves (f c)) : Leaves (BT.eachChild l i f) := by
  refine (getN i).bind fun n => ?_
  split
  · exact pure _
  · refine Leaves.bind ?_ fun _ => (kvLen i).bind fun _ => forChildren l i hf _ _
    split
    · exact pure _
    · exact hf _
theorem purgeNode (τ : TreeId) (full : Bool) : ∀ (n : Nat) (i : Id), Leaves (BT.purgeNode τ full n i : M K V _)
  | 0, _ => fatal
  | n + 1, i => by
      refine (getN i).bind fun n => ?_
      split
      · exact pure _
      split
      · exact throw _
      · refine (eachChild _ _ (purgeNode τ full _)).bind fun _ => (getN i).bind fun _ => ?_
        split
        · exact evict _ _
        · exact pure _
end Leaves

theorem drainerEvict_ctl {fuel : Nat} {x : Id} : (drainerEvict fuel x w).2.ctl = w.ctl := by
  unfold drainerEvict
  split
  · rfl
  · have := (Leaves.purgeNode (w.node x).tree true fuel x).run w
    split <;> simp_all

theorem evict_lru (hi : Inv cfg n w s) (hs : s.sound = true) {fuel : Nat} (hf : ∀ t, (cfg t).max + n + 2 < fuel) (x : Id) :
    ∃ w', drainerEvict fuel x w = (.ok (), w') ∧ Inv cfg (n + 1) w' s ∧ Evicted w w' x := by
  obtain ⟨L, LK, hS⟩ := hi.shows hs
  by_cases ht : (w.lru.el x).tag = .cleanLRU
  · have hx : (x, some false) ∈ (whole L + pagesB LK).2.1 := mem_live.1 (hS.scene.heap.lru.is.mem.2 ht)
    simp only [Prod.snd_add, Prod.fst_add, pagesB_2, add_zero] at hx
    obtain ⟨b, hb, hxb⟩ := mem_sumB.1 hx
    obtain ⟨e, he, rfl⟩ := List.mem_map.1 hb
    obtain ⟨m, hm, hrep⟩ := hS.rep e he
    have hxe : (x, some false) ∈ (bun e.P ⟨none, true⟩ e.g).2.1 := by simpa [Ent.F, slotB] using hxb
    obtain ⟨a, b', rfl⟩ := List.append_of_mem he
    have hH := hS.high e he
    have := hf e.P.τ
    obtain ⟨w', e1, h0, g', h1, h3, h4, h2⟩ := drainerEvict_run hS.scene.focus (by omega : e.H < fuel) hxe
    refine ⟨w', e1, hi.same hS hm hrep h1 h2, ?_⟩
    have l1 := hS.scene.focus.I.lru.is
    have l2 := h2.I.lru.is
    simp only [Prod.snd_add, Prod.fst_add, live_add] at l1 l2
    have d1 : ∀ i, (w'.lru.el i).tag = .dirtyLRU ↔ (w.lru.el i).tag = .dirtyLRU := fun i => by
      rw [show Tag.dirtyLRU = LruS.tagOf true from rfl, ← l1.mem, ← l2.mem, Multiset.mem_add, mem_live, h4, Multiset.mem_add]
      simp [slotB, mem_live]
    have c1 : ∀ i, (w'.lru.el i).tag = .cleanLRU → (w.lru.el i).tag = .cleanLRU := fun i => by
      rw [show Tag.cleanLRU = LruS.tagOf false from rfl, ← l1.mem, ← l2.mem, Multiset.mem_add (s := live (bun e.P ⟨none, true⟩ e.g).2.1), Multiset.mem_add]
      exact fun h => h.imp (fun h => Multiset.mem_of_le h3 h) (fun h => by simpa [slotB] using h)
    obtain ⟨l, q1, -⟩ := l1
    obtain ⟨l', q2, -⟩ := l2
    have i1 : w.lru.clean.items = (l false).length := (q1.lst false).items
    have i2 : w'.lru.clean.items = (l' false).length := (q2.lst false).items
    have j1 : w.lru.dirty.items = (l true).length := (q1.lst true).items
    have j2 : w'.lru.dirty.items = (l' true).length := (q2.lst true).items
    have m1 : ∀ i, i ∈ l false ↔ (w.lru.el i).tag = .cleanLRU := fun i => (q1.tag false i).symm
    have m2 : ∀ i, i ∈ l' false ↔ (w'.lru.el i).tag = .cleanLRU := fun i => (q2.tag false i).symm
    have m3 : ∀ i, i ∈ l true ↔ (w.lru.el i).tag = .dirtyLRU := fun i => (q1.tag true i).symm
    have m4 : ∀ i, i ∈ l' true ↔ (w'.lru.el i).tag = .dirtyLRU := fun i => (q2.tag true i).symm
    have lt : w'.lru.clean.items < w.lru.clean.items := by
      rw [i1, i2]
      have := card_sub (a := x :: l' false) (b := l false) (List.nodup_cons.2 ⟨by rw [m2, h0]; simp, q2.nodup false⟩) (by
        simp only [List.mem_cons, forall_eq_or_imp, m1, m2]
        exact ⟨ht, c1⟩)
      simp only [List.length_cons] at this
      omega
    refine ⟨d1, c1, by rw [h0]; simp, lt.le, fun _ => lt, ?_, ?_⟩
    · rw [j1, j2]
      exact Nat.le_antisymm (card_sub (q2.nodup true) fun i hi => (m3 i).2 ((d1 i).1 ((m4 i).1 hi))) (card_sub (q1.nodup true) fun i hi => (m4 i).2 ((d1 i).2 ((m3 i).1 hi)))
    · have := drainerEvict_ctl (w := w) (fuel := fuel) (x := x)
      rwa [e1] at this
  · have e1 : drainerEvict fuel x w = (.ok (), w) := by simp [drainerEvict, ht]
    exact ⟨w, e1, hi.mono (by omega), ⟨fun _ => Iff.rfl, fun _ h => h, ht, le_refl _, fun h => absurd h ht, rfl, rfl⟩⟩

/-- The drainer's look: it picks a node from the clean list, or gives up, and then there is nothing to evict or no need. -/
theorem look_run (hi : Inv cfg n w s) (hs : s.sound = true) :
    (∃ x, drainerLook w = (.ok (some x), w) ∧ (w.lru.el x).tag = .cleanLRU ∧ w.lru.clean.items ≠ 0 ∧ w.ctl.low < w.lru.clean.items + w.lru.dirty.items) ∨
    (drainerLook w = (.ok none, { w with ctl := { w.ctl with active := false } }) ∧
      (w.lru.clean.items = 0 ∨ w.lru.clean.items + w.lru.dirty.items ≤ w.ctl.low)) := by
  obtain ⟨L, LK, hS⟩ := hi.shows hs
  obtain ⟨l, q1, -⟩ := hS.scene.heap.lru.is
  have i1 : w.lru.clean.items = (l false).length := (q1.lst false).items
  have hh : w.lru.clean.head = (l false).head? := (q1.lst false).head
  unfold drainerLook
  by_cases hc : w.lru.clean.items = 0 ∨ w.ctl.low ≥ w.lru.clean.items + w.lru.dirty.items
  · rw [if_pos hc]; exact .inr ⟨rfl, hc⟩
  · rw [if_neg hc]
    have hc := not_or.1 hc
    rcases hl : l false with _ | ⟨x, r⟩
    · rw [hl] at i1; exact absurd i1 hc.1
    · rw [hl] at hh
      refine .inl ⟨x, ?_, (q1.tag false x).2 (by rw [hl]; simp), hc.1, by omega⟩
      simp [hh]

theorem Inv.ctl (hi : Inv cfg n w s) (c : Ctl) : Inv cfg n { w with ctl := c } s :=
  ⟨hi.filed, hi.apart, fun r sn h => by
    obtain ⟨H, d, h3, h4, h5⟩ := hi.snaps r sn h
    exact ⟨H, d, h3, ⟨h4.ref, h4.items, h4.ord, h4.occ, h4.locs, h4.nodup, h4.disk⟩, h5⟩, hi.owned, hi.exact, fun h => by
    obtain ⟨L, LK, hS⟩ := hi.shows h
    exact ⟨L, LK, ⟨hS.scene.heap.congr (fun _ _ => rfl) rfl rfl rfl rfl, hS.scene.nodup, fun x hx => (hS.scene.ok x hx).congr rfl⟩, hS.cfg, hS.high, hS.rep, hS.only, hS.lost⟩⟩

theorem drainer_run (hs : s.sound = true) {fuel : Nat} : ∀ (m n : Nat) (w : World K V), Inv cfg n w s → (∀ t, (cfg t).max + (n + m) + 2 < fuel) →
    w.lru.clean.items < m →
    ∃ w', drainer fuel m w = (.ok true, w') ∧ Inv cfg (n + m) w' s ∧ w'.ctl = { w.ctl with active := false } ∧
      (∀ i, (w'.lru.el i).tag = .dirtyLRU ↔ (w.lru.el i).tag = .dirtyLRU) ∧ w'.lru.dirty.items = w.lru.dirty.items ∧
      (∀ i, (w'.lru.el i).tag = .cleanLRU → (w.lru.el i).tag = .cleanLRU) ∧
      (w'.lru.clean.items = 0 ∨ w'.lru.clean.items + w'.lru.dirty.items ≤ w'.ctl.low)
  | 0, _, _, _, _, h => absurd h (Nat.not_lt_zero _)
  | m + 1, n, w, hi, hf, hm => by
      unfold drainer
      rcases look_run hi hs with ⟨x, e1, e2, -⟩ | ⟨e1, e2⟩
      · obtain ⟨w1, h1, h2, h3⟩ := evict_lru hi hs (fuel := fuel) (fun t => by have := hf t; omega) x
        have := h3.fewer e2
        obtain ⟨w2, k1, k2, k3, k4, k5, k6, k7⟩ := drainer_run (fuel := fuel) hs m (n + 1) w1 h2 (fun t => by have := hf t; omega) (by omega)
        refine ⟨w2, ?_, k2.mono (by omega), by rw [k3, h3.ctl], fun i => (k4 i).trans (h3.dirty i), k5.trans h3.same, fun i h => h3.clean i (k6 i h), k7⟩
        show M.bind _ _ _ = _
        simp only [M.bind, e1]
        show M.bind _ _ _ = _
        simp only [M.bind, h1, k1]
      · refine ⟨{ w with ctl := { w.ctl with active := false } }, ?_, (hi.ctl _).mono (by omega), rfl, fun _ => Iff.rfl, rfl, fun _ h => h, e2⟩
        show M.bind _ _ _ = _
        simp only [M.bind, e1]
        rfl

end
end SM.BT

import Verif.BTree.Report

/-! NewBPlusTree, OldBPlusTree, the drainer, UpdateLimits. -/

namespace SM.BT

open Spec (at? below above find has rejects Agrees AgreesE Refused stepE Op Ans)

variable {K V : Type}

section
variable {P : Par K} {w0 : World K V} {T : Tot K V} {w : World K V} {ρ : Option Id}
  {R R' : B K V} {c c' : Cell K V} {h H : Nat}

/-- The heap, the cache and the disk hold what is in a bundle. -/
structure Heap (w : World K V) (R : B K V) : Prop where
  st : St w R.1 R.2.2.2
  lru : Cache w R.2.1
  nodup : (R.2.2.1.map Prod.fst).Nodup
  disk : ∀ p ∈ R.2.2.1, w.disk p.1 = some p.2 ∧ p.1.len ≠ 0

theorem Heap.eq (h : Heap w R) (e : R = R') : Heap w R' := e ▸ h

theorem Heap.setT (h : Heap w R) (σ : TreeId) (t : TreeS) : Heap (w.setT σ t) R :=
  ⟨h.st.same rfl rfl rfl, ⟨h.lru.is, h.lru.nodup, h.lru.lt⟩, h.nodup, h.disk⟩

theorem Heap.I {SP : Multiset (Ref × DiskNode K V)} {k : Nat} (h : Heap w (R + pagesB SP)) (hr : (w.trees P.τ).root = ρ)
    (hs : k = 0 → (((w.trees P.τ).stale : List Ref) : Multiset Ref) = SP.map Prod.fst) (hc : (w.trees P.τ).cached = P.ca)
    (hmin : (w.trees P.τ).min = P.min) (hmax : (w.trees P.τ).max = P.max) : I P w (SP + R.2.2.1, k) w ρ R := by
  have h1 := h.st; have h2 := h.lru; have h3 := h.nodup; have h4 := h.disk
  simp only [Prod.fst_add, Prod.snd_add, pagesB_1, pagesB_2, pagesB_3, pagesB_4, add_zero] at h1 h2 h3 h4
  rw [add_comm] at h3 h4
  exact ⟨.refl _ _, hr, h1, h2, ⟨SP, hs, rfl⟩, h3, h4, hc, hmin, hmax⟩

theorem I.heap (h : BT.I P w0 T w ρ R) : ∃ SP, (T.2 = 0 → (((w.trees P.τ).stale : List Ref) : Multiset Ref) = SP.map Prod.fst) ∧
    SP + R.2.2.1 = T.1 ∧ Heap w (R + pagesB SP) := by
  obtain ⟨SP, h1, h2⟩ := h.stale
  refine ⟨SP, h1, h2, ?_⟩
  have h3 := h.st; have h4 := h.lru; have h5 := h.nodup; have h6 := h.disk
  rw [← h2, add_comm] at h5 h6
  constructor
  all_goals simp only [Prod.fst_add, Prod.snd_add, pagesB_1, pagesB_2, pagesB_3, pagesB_4, add_zero]
  · exact h3
  · exact h4
  · exact h5
  · exact h6

/-- The struct of a tree is set up. -/
theorem Heap.newTree (h : Heap w R) (r : Id) :
    BT.I P (w.setT P.τ { min := P.min, max := P.max, root := some r, stale := [], cached := P.ca }) (R.2.2.1, 0)
      (w.setT P.τ { min := P.min, max := P.max, root := some r, stale := [], cached := P.ca }) (some r) R := by
  have hh : (w.setT P.τ { min := P.min, max := P.max, root := some r, stale := [], cached := P.ca }).trees P.τ =
      { min := P.min, max := P.max, root := some r, stale := [], cached := P.ca } := by rw [setT_trees, upd_same]
  have := Heap.I (P := P) (SP := 0) (k := 0) (ρ := some r) (((h.setT P.τ _).eq (by simp [pagesB] : R = R + pagesB 0)))
    (by rw [hh]) (fun _ => by rw [hh]; rfl) (by rw [hh]) (by rw [hh]) (by rw [hh])
  rw [zero_add] at this
  exact this

theorem alloc_setT (n : NodeS K V) (σ : TreeId) (t : TreeS) :
    alloc n (w.setT σ t) = (.ok (w.addr n.tree), (alloc n w).2.setT σ t) := rfl

/-- NewBPlusTree -/
theorem newBPlusTree_run (h : Heap w R) : ∃ (r : Id) (w' : World K V),
    newBPlusTree P.τ P.max P.ca w = (.ok (), w') ∧
    Quiet P.τ (w.setT P.τ { min := P.min, max := P.max, root := some r, stale := [], cached := P.ca }) w' ∧
    w'.trees P.τ = { min := P.min, max := P.max, root := some r, stale := [], cached := P.ca } ∧
    Heap w' (bun P ⟨none, true⟩ (.leaf r none [] : Gt K V 0) + (slotB {r} + R)) := by
  have hB := h.newTree (P := P) (w.addr P.τ)
  have hev := hB.evo
  obtain ⟨w1, e1, h1⟩ := hB.alloc (n := { freshStruct P.τ 0 true true none none with tree := P.τ })
    (mkCell P ⟨none, true⟩ (w.addr P.τ) none (.leaf 0 [])) rfl rfl (fun ps => ⟨rfl, rfl, rfl, rfl, rfl, ⟨rfl, rfl, rfl, KvIs.nil⟩⟩)
  rw [alloc_setT] at e1
  obtain ⟨w2, e2, h2⟩ := (h1.eq (add_assoc _ _ _)).markDirtyNew rfl
  have h1' := h1.eq (R' := offB (w.addr P.τ) + (cellB (mkCell P ⟨none, true⟩ (w.addr P.τ) none (.leaf 0 [])) + (slotB {(w.addr P.τ)} + R))) (by
    show _ + offB (w.addr P.τ) + slotB {(w.addr P.τ)} + R = _
    abel)
  obtain ⟨SP, a1, a2, a3⟩ := h2.heap
  have hsp : SP = 0 := by
    have := congrArg Multiset.card a2
    simp only [Prod.snd_add, Prod.fst_add, cellB_3, lruB_3, slotB_3, zero_add, Multiset.card_add] at this
    rw [← Multiset.card_eq_zero]; omega
  subst hsp
  refine ⟨(w.addr P.τ), w2, ?_, ?_, ?_, ?_⟩
  · unfold newBPlusTree
    rw [if_neg (by have := P.four; have := P.even; omega)]
    have ea : alloc { freshStruct P.τ 0 true true none none with tree := P.τ } w = (.ok (w.addr P.τ), (alloc { freshStruct P.τ 0 true true none none with tree := P.τ } w).2) := rfl
    rw [bind_ok ea, bind_ok (modT_run _ _ _)]
    have e3 : (alloc { freshStruct P.τ 0 true true none none with tree := P.τ } w).2.setT P.τ
      { min := P.max / 2, max := P.max, root := some (w.addr P.τ), stale := [], cached := P.ca } = w1 := (Prod.ext_iff.1 e1).2
    rw [e3, bind_ok h1'.init]
    exact e2
  · exact h2.evo
  · have b1 := h2.root; have b2 := h2.min; have b3 := h2.max; have b4 := h2.cached
    have b5 : (w2.trees P.τ).stale = [] := by simpa using a1 rfl
    rw [← b1, ← b2, ← b3, ← b4, ← b5]
  · refine a3.eq ?_
    rw [bun_leaf, leafB]
    simp only [mkCell, ownPage_none, pagesB, Option.isNone_none, List.length_nil]
    show _ + lruB P.ca (w.addr P.τ) true + _ + 0 = _
    abel

/-- A world but for one node and one tree struct. -/
def World.but (w : World K V) (i : Id) (n : NodeS K V) (σ : TreeId) (t : TreeS) : World K V :=
  { w with node := upd w.node i n, trees := upd w.trees σ t }

theorem upd_upd {ι β : Type} [DecidableEq ι] (f : ι → β) (a : ι) (x y : β) : upd (upd f a x) a y = upd f a y := by
  funext b; by_cases hb : b = a <;> simp [upd, hb]

theorem but_modN {i : Id} {n : NodeS K V} {σ : TreeId} {t : TreeS} (f : NodeS K V → NodeS K V) :
    modN i f (w.but i n σ t) = (.ok (), w.but i (f n) σ t) := by
  simp only [modN, World.but, upd_same, upd_upd]

theorem but_modT {i : Id} {n : NodeS K V} {σ : TreeId} {t : TreeS} (f : TreeS → TreeS) :
    modT σ f (w.but i n σ t) = (.ok (), w.but i n σ (f t)) := by
  simp only [modT, World.but, upd_same, upd_upd]

/-- The client has been called. -/
def World.called (w : World K V) (gets unpacks : Nat) : World K V :=
  { w with env := { w.env with gets := gets, unpacks := unpacks } }

theorem but_unpack {i : Id} {n : NodeS K V} {σ : TreeId} {t : TreeS} :
    unpack (w.but i n σ t) = if w.env.unpackFails w.env.unpacks then (.err .codec, (w.called w.env.gets (w.env.unpacks + 1)).but i n σ t)
      else (.ok (), (w.called w.env.gets (w.env.unpacks + 1)).but i n σ t) := rfl

theorem but_getNode {i : Id} {n : NodeS K V} {σ : TreeId} {t : TreeS} {r : Ref} {d : DiskNode K V} (hd : w.disk r = some d) :
    getNode r (w.but i n σ t) = if w.env.getFails w.env.gets then (.err .getNode, (w.called (w.env.gets + 1) w.env.unpacks).but i n σ t)
      else (.ok d, (w.called (w.env.gets + 1) w.env.unpacks).but i n σ t) := by
  simp only [getNode]
  show (if w.env.getFails w.env.gets = true then _ else (match w.disk r with | some d => _ | none => _)) = _
  rw [hd]
  rfl

/-- A root is loaded as far as its own fields. -/
theorem loadNode_ok {i : Id} {n : NodeS K V} {σ : TreeId} {t : TreeS} {cmp : Compare K} {d : DiskNode K V}
    (hd : w.disk n.ref = some d) (hroot : d.root = true) (h1 : w.env.getFails w.env.gets = false)
    (h2 : w.env.unpackFails w.env.unpacks = false) (h3 : w.env.unpackFails (w.env.unpacks + 1) = false) :
    loadNode cmp σ i (w.but i n σ t) =
      (do loadBody cmp σ i d.body; modN i (fun n => { n with loaded := true }); markNodeClean σ i : M K V Unit)
        ((w.called (w.env.gets + 1) (w.env.unpacks + 2)).but i
          { n with kv := some .nil, items := d.items, root := d.root, leaf := d.body.isLeaf } σ { t with min := d.max / 2, max := d.max }) := by
  have hn : ∀ (x : NodeS K V) (y : TreeS), (w.but i x σ y).node i = x := fun x y => by simp [World.but, upd_same]
  unfold loadNode
  simp only [getN_bind, hn]
  rw [bind_ok (by rw [but_getNode hd, if_neg (by simp [h1])]), bind_ok (but_modN _)]
  have hu2 : ∀ (x : NodeS K V) (y : TreeS), unpack ((w.called (w.env.gets + 1) w.env.unpacks).but i x σ y) =
      (.ok (), (w.called (w.env.gets + 1) (w.env.unpacks + 1)).but i x σ y) := by
    intro x y
    rw [but_unpack, if_neg (by
      show ¬ w.env.unpackFails w.env.unpacks = true
      simp [h2])]
    rfl
  have hu3 : ∀ (x : NodeS K V) (y : TreeS), unpack ((w.called (w.env.gets + 1) (w.env.unpacks + 1)).but i x σ y) =
      (.ok (), (w.called (w.env.gets + 1) (w.env.unpacks + 2)).but i x σ y) := by
    intro x y
    rw [but_unpack, if_neg (by
      show ¬ w.env.unpackFails (w.env.unpacks + 1) = true
      simp [h3])]
    rfl
  rw [bind_ok (hu2 _ _), bind_ok (but_modN _)]
  simp only [loadMax, hroot, if_true]
  rw [bind_assoc_run, bind_ok (hu3 _ _), bind_ok (but_modT _)]

/-- Loading a root sets Items, and the minimum and maximum of the tree. -/
theorem loadNode_but {i : Id} {n m : NodeS K V} {σ : TreeId} {t u : TreeS} {cmp : Compare K} {d : DiskNode K V}
    (hd : w.disk n.ref = some d) (hroot : d.root = true)
    (hm : m = { n with items := m.items }) (hu : u = { t with min := u.min, max := u.max }) :
    loadNode cmp σ i (w.but i n σ t) = loadNode cmp σ i (w.but i m σ u) ∨
    ∃ e w' n' t', Faulty w e ∧ loadNode cmp σ i (w.but i n σ t) = (.err e, w'.but i n' σ t') ∧
      w'.node = w.node ∧ w'.trees = w.trees ∧ ∃ a b, w' = w.called a b := by
  have hmr : m.ref = n.ref := by rw [hm]
  have hn : ∀ (x : NodeS K V) (y : TreeS), (w.but i x σ y).node i = x := fun x y => by simp [World.but, upd_same]
  by_cases h1 : w.env.getFails w.env.gets = true
  · right
    refine ⟨.getNode, w.called (w.env.gets + 1) w.env.unpacks, n, t, .inl ⟨rfl, _, h1⟩, ?_, rfl, rfl, _, _, rfl⟩
    unfold loadNode
    simp only [getN_bind, hn]
    refine bind_err ?_
    rw [but_getNode hd, if_pos h1]
  by_cases h2 : w.env.unpackFails w.env.unpacks = true
  · right
    refine ⟨.codec, (w.called (w.env.gets + 1) w.env.unpacks).called (w.env.gets + 1) (w.env.unpacks + 1), { n with kv := some .nil }, t, .inr ⟨rfl, _, h2⟩, ?_, rfl, rfl, w.env.gets + 1, w.env.unpacks + 1, rfl⟩
    unfold loadNode
    simp only [getN_bind, hn]
    rw [bind_ok (by rw [but_getNode hd, if_neg h1]), bind_ok (but_modN _)]
    refine bind_err ?_
    rw [but_unpack, if_pos (show (w.called (w.env.gets + 1) w.env.unpacks).env.unpackFails (w.called (w.env.gets + 1) w.env.unpacks).env.unpacks = true from h2)]
    rfl
  by_cases h3 : w.env.unpackFails (w.env.unpacks + 1) = true
  · right
    refine ⟨.codec, w.called (w.env.gets + 1) (w.env.unpacks + 2), { n with kv := some .nil, items := d.items, root := d.root, leaf := d.body.isLeaf }, t, .inr ⟨rfl, _, h3⟩, ?_, rfl, rfl, _, _, rfl⟩
    unfold loadNode
    simp only [getN_bind, hn]
    have hu2 : ∀ (x : NodeS K V) (y : TreeS), unpack ((w.called (w.env.gets + 1) w.env.unpacks).but i x σ y) =
        (.ok (), (w.called (w.env.gets + 1) (w.env.unpacks + 1)).but i x σ y) := by
      intro x y
      rw [but_unpack, if_neg (show ¬ (w.called (w.env.gets + 1) w.env.unpacks).env.unpackFails (w.called (w.env.gets + 1) w.env.unpacks).env.unpacks = true from h2)]
      rfl
    rw [bind_ok (by rw [but_getNode hd, if_neg h1]), bind_ok (but_modN _), bind_ok (hu2 _ _), bind_ok (but_modN _)]
    simp only [loadMax, hroot, if_true]
    refine bind_err (bind_err ?_)
    rw [but_unpack, if_pos (show (w.called (w.env.gets + 1) (w.env.unpacks + 1)).env.unpackFails (w.called (w.env.gets + 1) (w.env.unpacks + 1)).env.unpacks = true from h3)]
    rfl
  · left
    rw [loadNode_ok hd hroot (by simpa using h1) (by simpa using h2) (by simpa using h3),
      loadNode_ok (by rw [hmr]; exact hd) hroot (by simpa using h1) (by simpa using h2) (by simpa using h3)]
    rw [hm, hu]

/-- Nothing happens but to one tree and in memory. -/
structure Aside (τ : TreeId) (w w' : World K V) : Prop where
  next : w.next ≤ w'.next
  others : ∀ σ, σ ≠ τ → w'.trees σ = w.trees σ
  getF : w'.env.getFails = w.env.getFails
  unpF : w'.env.unpackFails = w.env.unpackFails
  putL : (w'.env.putLoc, w'.env.packFails) = (w.env.putLoc, w.env.packFails)
  disF : w'.env.discardFails = w.env.discardFails
  low : w'.ctl.low = w.ctl.low
  high : w'.ctl.high = w.ctl.high
  disk : w'.disk = w.disk
  log : w'.log = w.log
  puts : w'.env.puts = w.env.puts
  discards : w'.env.discards = w.env.discards

theorem Quiet.aside {τ : TreeId} {w w' : World K V} (q : Quiet τ w w') : Aside τ w w' :=
  ⟨q.next, q.others, q.getF, q.unpF, q.putL, q.disF, q.low, q.high, q.disk, q.log, q.puts, q.discards⟩

theorem Aside.trans {τ : TreeId} {a b c : World K V} (h : Aside τ a b) (g : Aside τ b c) : Aside τ a c :=
  ⟨le_trans h.next g.next, fun σ hσ => (g.others σ hσ).trans (h.others σ hσ), g.getF.trans h.getF, g.unpF.trans h.unpF,
   g.putL.trans h.putL, g.disF.trans h.disF, g.low.trans h.low, g.high.trans h.high, g.disk.trans h.disk, g.log.trans h.log,
   g.puts.trans h.puts, g.discards.trans h.discards⟩

theorem Aside.setT (τ : TreeId) (w : World K V) (t : TreeS) : Aside τ w (w.setT τ t) :=
  ⟨le_refl _, fun σ hσ => by simp [upd, hσ], rfl, rfl, rfl, rfl, rfl, rfl, rfl, rfl, rfl, rfl⟩

theorem Heap.congr {w' : World K V} (h : Heap w R) (hn : ∀ i ∈ idsOf R.1, w'.node i = w.node i) (hp : w'.ps = w.ps)
    (hl : w'.lru = w.lru) (hx : w'.next = w.next) (hd : w'.disk = w.disk) : Heap w' R := by
  refine ⟨⟨fun c hc => ?_, h.st.nodup, ?_, h.st.kids, ?_⟩, ⟨?_, h.lru.nodup, ?_⟩, h.nodup, ?_⟩
  · have := h.st.cell c hc
    have e := hn c.id (mem_idsOf hc)
    exact ⟨by rw [e]; exact this.tree, by rw [e]; exact this.parent, by rw [e]; exact this.root, by rw [e]; exact this.ref,
      by rw [e]; exact this.dirty, by rw [e, hp]; exact this.body⟩
  · exact fun i hi => (h.st.lt i hi).mono hx.ge
  · exact fun i hi => (h.st.kidlt i hi).mono hx.ge
  · rw [hl]; exact h.lru.is
  · exact fun i hi => (h.lru.lt i hi).mono hx.ge
  · rw [hd]; exact h.disk

/-- OldBPlusTree, where a tree has been stored. -/
theorem oldBPlusTree_run {d : Dt K V H} (h : Heap w (pagesB (d.pages P true) + R)) (ho : Ord P.toCmp d.erase.seq) :
    Res (oldBPlusTree P.cmp P.τ d.ref P.ca w)
      (fun _ w' => ∃ g : Gt K V H, Sim P (.unl g.id d) g ∧ g.ld = true ∧ Aside P.τ w w' ∧
        w'.trees P.τ = { min := P.min, max := P.max, root := some g.id, stale := [], cached := P.ca } ∧
        Heap w' (bun P ⟨none, true⟩ g + (slotB {g.id} + R)))
      (fun e w' => Faulty w e ∧ Aside P.τ w w' ∧ Heap w' (pagesB (d.pages P true) + R)) := by
  have hB := h.newTree (P := P) (w.addr P.τ)
  obtain ⟨w1, e1, h1⟩ := hB.alloc (n := { ref := d.ref, items := d.cnt, loaded := false, dirty := false, root := true, leaf := true, tree := P.τ, parent := none, kv := none, left := none, psRoot := none })
    (mkCell P ⟨none, true⟩ (w.addr P.τ) (some d.ref) (.unl d.cnt)) rfl rfl (fun ps => ⟨rfl, rfl, rfl, rfl, rfl, ⟨rfl, rfl⟩⟩)
  have h1' := h1.eq (R' := offB (w.addr P.τ) + (cellB (mkCell P ⟨none, true⟩ (w.addr P.τ) (some d.ref) (.unl d.cnt)) + (slotB {(w.addr P.τ)} + (pagesB (d.pages P true) + R)))) (by
    show _ + offB (w.addr P.τ) + slotB {(w.addr P.τ)} + _ = _
    abel)
  have h1u : I P _ _ w1 (some (w.addr P.τ)) (bun P ⟨none, true⟩ (.unl (w.addr P.τ) d : Gt K V H) + (slotB {(w.addr P.τ)} + R)) := h1.eq (by
    rw [bun_unl]
    show _ + offB (w.addr P.τ) + slotB {(w.addr P.τ)} + _ = _
    abel)
  have hout : I P _ _ w1 (some (w.addr P.τ)) (pagesB (d.pages P true) + R) := h1'.forgetOff.forget.forgetSlot
  have hwB : w1 = ({ w with
      next := upd w.next P.τ (w.next P.τ + 1)
      ps := upd w.ps (w.addr P.τ) { items := 0, kvIndex := 0, parent := none, left := none, right := none } } : World K V).but (w.addr P.τ)
        { ref := d.ref, items := d.cnt, loaded := false, dirty := false, root := true, leaf := true, tree := P.τ, parent := none, kv := none, left := none, psRoot := none }
        P.τ { min := P.min, max := P.max, root := some (w.addr P.τ), stale := [], cached := P.ca } := (Prod.ext_iff.1 e1).2.symm
  generalize hv : ({ w with
      next := upd w.next P.τ (w.next P.τ + 1)
      ps := upd w.ps (w.addr P.τ) { items := 0, kvIndex := 0, parent := none, left := none, right := none } } : World K V) = v at hwB
  have hvd : v.disk = w.disk := by rw [← hv]
  have erun : oldBPlusTree P.cmp P.τ d.ref P.ca w = loadNode P.cmp P.τ (w.addr P.τ) (v.but (w.addr P.τ)
      { ref := d.ref, items := 0, loaded := false, dirty := false, root := true, leaf := true, tree := P.τ, parent := none, kv := none, left := none, psRoot := none }
        P.τ { min := 0, max := 0, root := some (w.addr P.τ), stale := [], cached := P.ca }) := by
    unfold oldBPlusTree
    have ea : ∀ n : NodeS K V, alloc n w = (.ok (w.addr n.tree), (alloc n w).2) := fun _ => rfl
    rw [bind_ok (ea _), bind_ok (modT_run _ _ _)]
    have e3 : ∀ (n : NodeS K V) t, n.tree = P.τ → (alloc n w).2.setT P.τ t = v.but (w.addr P.τ) n P.τ t := by intro n t hn; rw [← hv, ← hn]; rfl
    rw [e3 _ _ rfl]
    obtain ⟨o1, o2⟩ := Cache.offs h1' rfl
    rw [hwB] at o1
    exact bind_ok (init_run (L := _) o1 o2)
  have hdd : v.disk d.ref = some ⟨d.cnt, true, P.max, d.body⟩ := by
    rw [hvd]
    refine (h.disk (d.ref, mkDisk P true d.cnt d.body) ?_).1
    simp [Dt.pages_eq, pagesB]
  rw [erun]
  rcases loadNode_but (i := (w.addr P.τ)) (n := { ref := d.ref, items := 0, loaded := false, dirty := false, root := true, leaf := true, tree := P.τ, parent := none, kv := none, left := none, psRoot := none })
    (m := { ref := d.ref, items := d.cnt, loaded := false, dirty := false, root := true, leaf := true, tree := P.τ, parent := none, kv := none, left := none, psRoot := none })
    (σ := P.τ) (t := { min := 0, max := 0, root := some (w.addr P.τ), stale := [], cached := P.ca })
    (u := { min := P.min, max := P.max, root := some (w.addr P.τ), stale := [], cached := P.ca }) (cmp := P.cmp) hdd rfl rfl rfl with e2 | ⟨e, w2, n', t', hf, e2, g1, g2, a, b, g3⟩
  · rw [e2, ← hwB]
    refine (load_run h1u ho).mono ?_ ?_
    · rintro _ w' ⟨g, c1, c2, c3, c4, c5, c6, hI⟩
      have hg : g.id = (w.addr P.τ) := c2
      obtain ⟨SP, a1, a2, a3⟩ := hI.heap
      have hsp : SP = 0 := by
        have b := congrArg Multiset.card a2
        have b1 : (bun P ⟨none, true⟩ g + (slotB {(w.addr P.τ)} + R)).2.2.1 = (pagesB (d.pages P true) + R).2.2.1 := by
          simp [c6, pagesB]
        rw [b1, Multiset.card_add] at b
        dsimp only at b
        rw [← Multiset.card_eq_zero]; omega
      subst hsp
      refine ⟨g, ⟨(id_unl ..).symm, ?_, ?_, fun _ => c5.1, ?_, ?_⟩, c1, (Aside.setT _ _ _).trans hI.evo.aside, ?_, ?_⟩
      · rw [c3, st_unl]
      · rw [c4, erase_unl]
      · rw [c5.2, odds_unl]
      · intro q; rw [c6, bun_unl]; simp [cellB, offB, pagesB]
      · have b1 := hI.root; have b2 := hI.min; have b3 := hI.max; have b4 := hI.cached
        have b5 : (w'.trees P.τ).stale = [] := by simpa using a1 rfl
        rw [hg, ← b1, ← b2, ← b3, ← b4, ← b5]
      · rw [hg]
        exact a3.eq (by simp [pagesB])
    · rintro e w' ⟨hf, hI⟩
      refine ⟨hf, (Aside.setT _ _ _).trans hI.evo.aside, ?_⟩
      have hI2 : I P (w.setT P.τ { min := P.min, max := P.max, root := some (w.addr P.τ), stale := [], cached := P.ca }) ((pagesB (d.pages P true) + R).2.2.1, 0) w' (some (w.addr P.τ)) (pagesB (d.pages P true) + R) := by
        have := hI
        rw [bun_unl] at this
        exact (this.eq (R' := offB (w.addr P.τ) + (cellB (mkCell P ⟨none, true⟩ (w.addr P.τ) (some d.ref) (.unl d.cnt)) + (slotB {(w.addr P.τ)} + (pagesB (d.pages P true) + R)))) (by
          abel)).forgetOff.forget.forgetSlot
      obtain ⟨SP, a1, a2, a3⟩ := hI2.heap
      have hsp : SP = 0 := by
        have b := congrArg Multiset.card a2
        rw [Multiset.card_add] at b
        dsimp only at b
        rw [← Multiset.card_eq_zero]; omega
      subst hsp
      exact a3.eq (by simp [pagesB])
  · rw [e2]
    refine .err rfl ⟨?_, ?_, ?_⟩
    · rw [← hv] at hf; exact hf
    · rw [g3, ← hv]
      exact ⟨World.Took.le (τ := P.τ) rfl, fun σ hσ => by simp [World.but, World.called, upd, hσ], rfl, rfl, rfl, rfl, rfl, rfl, rfl, rfl, rfl, rfl⟩
    · obtain ⟨SP, a1, a2, a3⟩ := hout.heap
      have hsp : SP = 0 := by
        have b := congrArg Multiset.card a2
        rw [Multiset.card_add] at b
        dsimp only at b
        rw [← Multiset.card_eq_zero]; omega
      subst hsp
      have a4 := a3.eq (R' := pagesB (d.pages P true) + R) (by simp [pagesB])
      refine a4.congr ?_ ?_ ?_ ?_ ?_
      · intro i hi
        have := h.st.lt i hi
        rw [g3, ← hv, hwB, ← hv]
        have hne : i ≠ (w.addr P.τ) := this.ne _
        simp [World.but, World.called, upd, hne]
      all_goals rw [g3, hwB]; rfl

/-! ### The drainer -/

theorem mem_live {L : Multiset (Id × Option Bool)} {x : Id} {d : Bool} : (x, d) ∈ live L ↔ (x, some d) ∈ L := by
  unfold live
  rw [Multiset.mem_bind]
  constructor
  · rintro ⟨⟨y, e⟩, h1, h2⟩
    cases e with
    | none => simp at h2
    | some b =>
      simp only [Multiset.mem_singleton, Prod.mk.injEq] at h2
      obtain ⟨rfl, rfl⟩ := h2
      exact h1
  · exact fun h => ⟨_, h, by simp⟩

theorem mem_sumB {L : List (B K V)} {e : Id × Option Bool} : e ∈ L.sum.2.1 ↔ ∃ b ∈ L, e ∈ b.2.1 := by
  induction L with
  | nil => simp
  | cons t L ih => simp [ih]

/-- A node on the clean list is a loaded node of the tree that has a place on disk. -/
theorem locate {x : Id} : ∀ {h : Nat} (C : Ctx K V H h) (q : Pos) (t : Gt K V h), t.odds = 0 → t.Clean → (x, some false) ∈ (bun P q t).2.1 →
    ∃ (h' : Nat) (C' : Ctx K V H h') (t' : Gt K V h'), h' ≤ h ∧ C.plug t = C'.plug t' ∧ t'.id = x ∧ t'.st.isSome = true ∧ t'.odds = 0 ∧ t'.Clean
  | 0, C, q, t, hz, hc, hx => by
      rcases t.cases0 with ⟨i, d, rfl⟩ | ⟨i, st, l, rfl⟩ | ⟨i, o, l, rfl⟩
      · rw [bun_unl] at hx; simp [cellB, offB, pagesB] at hx
      · refine ⟨0, C, _, Nat.le_refl _, rfl, ?_, ?_, hz, hc⟩
        · rw [bun_leaf, leafB] at hx
          cases st <;> simp [cellB, lruB, pageB] at hx <;> simp [hx.1]
        · rw [bun_leaf, leafB] at hx
          cases st <;> simp [cellB, lruB, pageB] at hx <;> simp
      · simp at hz
  | h + 1, C, q, t, hz, hc, hx => by
      rcases t.casesS with ⟨i, d, rfl⟩ | ⟨i, st, r, rfl⟩ | ⟨i, o, l, rfl⟩
      · rw [bun_unl] at hx; simp [cellB, offB, pagesB] at hx
      · rw [bun_inner] at hx
        simp only [Prod.snd_add, Prod.fst_add, Multiset.mem_add] at hx
        rcases hx with hx | hx
        · refine ⟨h + 1, C, _, Nat.le_refl _, rfl, ?_, ?_, hz, hc⟩
          · rw [innerB] at hx
            cases st <;> simp [cellB, lruB, pageB] at hx <;> simp [hx.1]
          · rw [innerB] at hx
            cases st <;> simp [cellB, lruB, pageB] at hx <;> simp
        · rw [mem_sumB] at hx
          obtain ⟨b, hb, hx⟩ := hx
          obtain ⟨c, hcm, rfl⟩ := List.mem_map.1 hb
          obtain ⟨k1, k2, hk⟩ := List.append_of_mem hcm
          obtain ⟨pre, post, hp, -, -⟩ := Row.split hk
          have hcz := odds_kid hz hcm
          rw [Clean_inner] at hc
          obtain ⟨h', C', t', g1, g2, g3⟩ := locate (.fr i st pre post C) _ c hcz (hc c hcm).1 hx
          exact ⟨h', C', t', by omega, by rw [← g2, Ctx.plug, hp], g3⟩
      · simp [odds_odInner] at hz

/-- Below a node that has a place on disk no node is dirty. -/
theorem not_dirty {x : Id} : ∀ {h : Nat} (t : Gt K V h), t.odds = 0 → t.Clean → t.st.isSome = true → ∀ q, (x, some true) ∉ (bun P q t).2.1
  | 0, t, hz, hc, hs, q, hx => by
      rcases t.cases0 with ⟨i, d, rfl⟩ | ⟨i, st, l, rfl⟩ | ⟨i, o, l, rfl⟩
      · rw [bun_unl] at hx; simp [cellB, offB, pagesB] at hx
      · rw [bun_leaf, leafB] at hx
        cases st <;> simp [cellB, lruB, pageB] at hx hs
      · simp at hz
  | h + 1, t, hz, hc, hs, q, hx => by
      rcases t.casesS with ⟨i, d, rfl⟩ | ⟨i, st, r, rfl⟩ | ⟨i, o, l, rfl⟩
      · rw [bun_unl] at hx; simp [cellB, offB, pagesB] at hx
      · rw [bun_inner] at hx
        simp only [Prod.snd_add, Prod.fst_add, Multiset.mem_add] at hx
        rcases hx with hx | hx
        · rw [innerB] at hx
          cases st <;> simp [cellB, lruB, pageB] at hx hs
        · rw [mem_sumB] at hx
          obtain ⟨b, hb, hx⟩ := hx
          obtain ⟨c, hcm, rfl⟩ := List.mem_map.1 hb
          rw [Clean_inner] at hc
          exact not_dirty c (odds_kid hz hcm) (hc c hcm).1 ((hc c hcm).2 hs) _ hx
      · simp [odds_odInner] at hz

theorem unl_of_ld {t : Gt K V h} (hl : t.ld = false) : ∃ d, t = .unl t.id d := by
  cases h with
  | zero =>
    rcases t.cases0 with ⟨i, d, rfl⟩ | ⟨i, st, l, rfl⟩ | ⟨i, o, l, rfl⟩
    · exact ⟨d, rfl⟩
    · simp at hl
    · simp at hl
  | succ h =>
    rcases t.casesS with ⟨i, d, rfl⟩ | ⟨i, st, l, rfl⟩ | ⟨i, o, l, rfl⟩
    · exact ⟨d, rfl⟩
    · simp at hl
    · simp at hl

/-- The drainer evicts a node of a tree. -/
theorem drainerEvict_run {g : Gt K V H} (hr : Rest P w0 T R g w) {fuel : Nat} (hf : H < fuel) {x : Id}
    (hx : (x, some false) ∈ (bun P ⟨none, true⟩ g).2.1) :
    ∃ w', drainerEvict fuel x w = (.ok (), w') ∧ (w'.lru.el x).tag = .noLRU ∧
      ∃ g', Sim P g g' ∧ live (bun P ⟨none, true⟩ g').2.1 ≤ live (bun P ⟨none, true⟩ g).2.1 ∧
        (∀ i, (i, some true) ∈ (bun P ⟨none, true⟩ g').2.1 ↔ (i, some true) ∈ (bun P ⟨none, true⟩ g).2.1) ∧ Rest P w0 T R g' w' := by
  obtain ⟨h', C, t, hle, e0, rfl, hst, hz, hcl⟩ := locate .top _ g hr.odds hr.clean hx
  have e0 : g = C.plug t := e0
  have hI : I P w0 T w (some g.id) (bun P C.pos t + (C.bun P t.kid + (slotB {g.id} + R))) := hr.I.eq (by rw [e0, bun_plug]; abel)
  have htag : (w.lru.el t.id).tag = .cleanLRU := hr.I.lru.is.mem.1 ((mem_live (d := false)).2 (by simp only [Prod.snd_add, Prod.fst_add, Multiset.mem_add]; exact .inl hx))
  have hτ := (hI.head hz).2.2.1
  have hrun := purgeNode_run true t (fuel := fuel) (by omega) hI hz hcl
  unfold drainerEvict
  rw [if_neg (by simp [htag]), hτ]
  rcases hrun.cases with ⟨_, w', e1, -, t', h1, h2, h3, h4⟩ | ⟨e, w', e1, -, -, h3, -⟩
  · rw [e1]
    have hI' : I P w0 T w' (some g.id) (bun P ⟨none, true⟩ (C.plug t') + (slotB {g.id} + R)) := h4.eq (by rw [bun_plug, h1.kid]; abel)
    have hs : Sim P g (C.plug t') := by rw [e0]; exact C.sim h1
    refine ⟨w', rfl, ?_, _, hs, ?_, fun i => ?_, hr.sim hs hI'⟩
    · rw [h4.lru.is.tag_none]
      intro d hd
      have hld := h2 hst
      obtain ⟨dd, hdd⟩ := unl_of_ld hld
      have hn := h4.lru.nodup
      rw [mem_live] at hd
      rw [hdd, bun_unl] at hn hd
      rw [← h1.id] at hd
      simp only [cellB, offB, pagesB, Prod.snd_add, Prod.fst_add, zero_add, add_zero, Multiset.singleton_add, Multiset.mem_cons, Multiset.map_cons, Multiset.nodup_cons] at hd hn
      rcases hd with hd | hd
      · simp at hd
      · exact hn.1 (Multiset.mem_map.2 ⟨_, hd, rfl⟩)
    · rw [e0, bun_plug, bun_plug, h1.kid]
      simp only [Prod.snd_add, Prod.fst_add, live_add]
      exact add_le_add (h3.1 _) (le_refl _)
    · rw [e0, bun_plug, bun_plug, h1.kid]
      simp only [Prod.snd_add, Prod.fst_add, Multiset.mem_add]
      have k1 := not_dirty (P := P) (x := i) t hz hcl hst C.pos
      have k2 : (i, some true) ∉ (bun P C.pos t').2.1 := not_dirty t' (by rw [h1.odds]; exact hz) (h1.clean hcl) (by rw [h1.st]; exact hst) _
      tauto
  · simp [h3] at hst

theorem has_valid {key : K} {l : List (K × V)} (hv : ∀ p ∈ l, P.Valid p.1) (hh : has P.cmp key l = true) : P.Valid key := by
  by_contra hk
  have hl : l ≠ [] := by rintro rfl; simp [has, find] at hh
  rw [has, find, List.find?_isSome] at hh
  obtain ⟨p, hp, he⟩ := hh
  obtain ⟨e, he'⟩ := P.law.rejects key p.1 (fun h => hk h.1)
  simp [eqb, he'] at he

/-- Put of a key that is present changes nothing. -/
theorem put_present {g : Gt K V H} (hr : Rest P w0 T R g w) {fuel : Nat} (hf : H < fuel) (key : K) (value : V)
    (hh : has P.cmp key g.erase.flat = true) :
    ReadPost P w0 T R g (.put key value) (step P.cmp P.τ fuel (.put key value) w) := by
  have hk : P.Valid key := has_valid hr.ord.flat.2 hh
  simp only [step, put, bind_assoc_run, ReadPost, stepE, Op.key?]
  rw [bind_ok hr.root]
  refine (hr.byKey false key (by omega)).bind ?_ ?_
  · rintro e w' ⟨h1, h2⟩
    exact ⟨h1.imp_right (fun h => ⟨by simp [h.1], key, rfl, h.2⟩), h2⟩
  · rintro a w' ⟨C, i, st, l, rfl, hfit, hv, h1⟩
    have hsame := hr.atLeaf h1
    have hfl := h1.flat
    obtain ⟨hs, hvl⟩ := h1.ord hr.ord
    obtain ⟨tr, ht1, ht2, ht3⟩ := h1.2.isLeaf.kv
    dsimp only
    rw [bind_ok (kvOf_run ht1)]
    rw [LLRB.Tree.getByKey_spec P.law hk ht2.valid ht2.sorted, ht3, find_leafKv]
    have hval := hfl ▸ hr.ord.flat.2
    have hhas : has P.cmp key g.erase.flat = has P.cmp key l := by
      rw [hfl]; exact around_has P.law hk hval (hfit hk).lt (hfit hk).gt
    rw [hr.rejects hk]
    cases hq : find P.cmp key l with
    | some p => exact Res.ok rfl ⟨by simp [AgreesE, Spec.step, hh], hsame⟩
    | none => rw [hhas, has, hq] at hh; cases hh

/-- FetchLocation -/
theorem fetchLocation_run {g : Gt K V H} (hr : Rest P w0 T R g w) : fetchLocation P.τ w = (.ok (refOf g.st), w) := by
  unfold fetchLocation
  rw [bind_ok hr.root, getN_bind]
  show (Out.ok (w.node g.id).ref, w) = _
  rw [(hr.I.head hr.odds).2.2.2.1]

end

end SM.BT

import Verif.Conc.Split
import Verif.LLRB.All

/-! What belongs to one map: nodes, references and trees that point to nothing of another map's; and actions that stay within it. -/

namespace SM.BT

variable {K V α β : Type}

/-- Which places of the storage a map reads from, and which it writes to: where one map writes no other reads. Places that nobody writes to may be
read by several. -/
class Areas where
  reads : TreeId → Nat × Nat → Prop
  writes : TreeId → Nat × Nat → Prop
  both : ∀ {t p}, writes t p → reads t p
  apart : ∀ {t u p}, writes t p → reads u p → u = t

export Areas (reads writes)

/-- Every place belongs to one map. -/
@[reducible] def Areas.of (area : Nat × Nat → TreeId) : Areas := ⟨fun t p => area p = t, fun t p => area p = t, id, fun h h' => h'.symm.trans h⟩

/-- The map shares nothing. -/
def Whole [Areas] (t : TreeId) : Prop := ∀ p, reads t p → writes t p

theorem Areas.of_whole (area : Nat × Nat → TreeId) (t : TreeId) : @Whole (Areas.of area) t := fun _ h => h

/-- Values that can point to parts of a map; `own t a`: they point to parts of `t` only. -/
class Own (α : Type) where
  own : TreeId → α → Prop

export Own (own)

/-- Other values point to nothing. -/
instance (priority := low) Own.any : Own α := ⟨fun _ _ => True⟩
instance (priority := high) Own.id : Own (Nat × Nat) := ⟨fun t i => i.1 = t⟩
instance Own.prod [Own α] [Own β] : Own (α × β) := ⟨fun t x => own t x.1 ∧ own t x.2⟩
instance Own.option [Own α] : Own (Option α) := ⟨fun t o => ∀ a, o = some a → own t a⟩
instance Own.list [Own α] : Own (List α) := ⟨fun t l => ∀ a ∈ l, own t a⟩
instance Own.except [Own α] : Own (Except Err α) := ⟨fun t o => ∀ a, o = .ok a → own t a⟩
instance Own.out [Own α] : Own (Out α) := ⟨fun t o => ∀ a, o = .ok a → own t a⟩
instance Own.val : Own (Val V) := ⟨fun t v => ∀ i, v = .node i → own t i⟩
instance Own.tree [Own V] : Own (LLRB.Tree K V) := ⟨fun t => LLRB.Tree.All (own t)⟩
instance Own.psum : Own PSum := ⟨fun t p => own t p.parent ∧ own t p.left ∧ own t p.right⟩

section
variable [Areas]

instance Own.ref : Own Ref := ⟨fun t r => r.len ≠ 0 → reads t (r.num, r.off)⟩
instance Own.node : Own (NodeS K V) := ⟨fun t n => n.tree = t ∧ own t n.ref ∧ own t n.parent ∧ own t n.kv ∧ own t n.left ∧ own t n.psRoot⟩
instance Own.treeS : Own TreeS := ⟨fun t n => own t n.root ∧ own t n.stale⟩
instance Own.body : Own (DiskBody K V) := ⟨fun t b => ∀ c cs, b = .inner c cs → own t c ∧ own t cs⟩
instance Own.disk : Own (DiskNode K V) := ⟨fun t d => own t d.body⟩

end

section
variable {t : TreeId}

theorem own_any (a : α) : (@own α Own.any t a) = True := rfl
theorem own_nat (a : Nat) : own t a = True := rfl
theorem own_int (a : Int) : own t a = True := rfl
theorem own_bool (a : Bool) : own t a = True := rfl
theorem own_unit (a : Unit) : own t a = True := rfl
theorem own_id (i : Nat × Nat) : own t i = (i.1 = t) := rfl
theorem own_pair [Own α] [Own β] (x : α × β) : (@own (α × β) Own.prod t x) = (own t x.1 ∧ own t x.2) := rfl
theorem own_some [Own α] (a : α) : own t (some a) = own t a := by simp [own]
theorem own_none [Own α] : own t (none : Option α) = True := by simp [own]
theorem own_nil [Own α] : own t ([] : List α) = True := by simp [own]
theorem own_cons [Own α] (a : α) (l : List α) : own t (a :: l) = (own t a ∧ own t l) := by simp [own]
theorem own_ok [Own α] (a : α) : own t (Except.ok a : Except Err α) = own t a := by simp [own]
theorem own_error [Own α] (e : Err) : own t (Except.error e : Except Err α) = True := by simp [own]
theorem own_item (v : V) : own t (Val.item v) = True := by simp [own]
theorem own_ptr (i : Nat × Nat) : own t (Val.node i : Val V) = (i.1 = t) := by simp [own]
theorem own_leaf [Own V] : own t (LLRB.Tree.nil : LLRB.Tree K V) = True := rfl
theorem own_psum (p : PSum) : own t p = (own t p.parent ∧ own t p.left ∧ own t p.right) := rfl
theorem own_ref [Areas] (r : Ref) : own t r = (r.len ≠ 0 → reads t (r.num, r.off)) := rfl
theorem own_zero [Areas] : own t Ref.zero = True := by simp [own, Ref.zero]
theorem own_node [Areas] (n : NodeS K V) : own t n = (n.tree = t ∧ own t n.ref ∧ own t n.parent ∧ own t n.kv ∧ own t n.left ∧ own t n.psRoot) := rfl
theorem own_treeS [Areas] (n : TreeS) : own t n = (own t n.root ∧ own t n.stale) := rfl
theorem own_dleaf [Areas] (l : List (K × V)) : own t (DiskBody.leaf l) = True := by simp [own]
theorem own_dnone [Areas] : own t (DiskBody.none : DiskBody K V) = True := by simp [own]
theorem own_inner [Areas] (c : Ref × Nat) (cs : List (K × (Ref × Nat))) : own t (DiskBody.inner c cs : DiskBody K V) = (own t c ∧ own t cs) := by simp [own]
theorem own_disk [Areas] (d : DiskNode K V) : own t d = own t d.body := rfl
theorem own_bools (l : List Bool) : own t l = True := eq_true fun _ _ => trivial
theorem own_ints (l : List Int) : own t l = True := eq_true fun _ _ => trivial
theorem own_mem [Own α] {l : List α} {a : α} (h : own t l) (ha : a ∈ l) : own t a := h a ha

theorem own_put {cmp : Compare K} {k : K} {v : Val V} {x : LLRB.Tree K (Val V)} (h1 : own t v) (h2 : own t x) : own t (LLRB.Tree.put cmp k v x) :=
  fun _ h => ⟨⟨trivial, fun _ _ => trivial⟩, LLRB.Tree.All.put (P := own t) h1 h2 h⟩
theorem own_deleteByIndex {cmp : Compare K} {n : Int} {x : LLRB.Tree K (Val V)} (h2 : own t x) : own t (LLRB.Tree.deleteByIndex cmp n x) :=
  fun _ h => ⟨⟨trivial, fun _ _ => trivial⟩, LLRB.Tree.All.deleteByIndex (P := own t) h2 h⟩
theorem own_deleteByKey {cmp : Compare K} {k : K} {x : LLRB.Tree K (Val V)} (h2 : own t x) : own t (LLRB.Tree.deleteByKey cmp k x) :=
  fun _ h => ⟨⟨trivial, fun _ _ => trivial⟩, LLRB.Tree.All.deleteByKey (P := own t) h2 h⟩
theorem own_patchByIndex {n : Int} {v : Val V} {x : LLRB.Tree K (Val V)} (h1 : own t v) (h2 : own t x) : own t (LLRB.Tree.patchByIndex n v x) :=
  fun _ h => ⟨⟨trivial, fun _ _ => trivial⟩, LLRB.Tree.All.patchByIndex (P := own t) h1 h2 h⟩
theorem own_patchByKey {cmp : Compare K} {k : K} {v : Val V} {x : LLRB.Tree K (Val V)} (h1 : own t v) (h2 : own t x) : own t (LLRB.Tree.patchByKey cmp k v x) :=
  ⟨⟨trivial, fun _ _ => trivial⟩, LLRB.Tree.All.patchByKey (P := own t) h1 h2⟩
theorem own_getByIndex {n : Int} {x : LLRB.Tree K (Val V)} (h2 : own t x) : own t (LLRB.Tree.getByIndex n x) :=
  fun _ h _ h' => ⟨trivial, LLRB.Tree.All.getByIndex (P := own t) h2 (h.trans (congrArg some h'))⟩
theorem own_getByKey {cmp : Compare K} {k : K} {x : LLRB.Tree K (Val V)} (h2 : own t x) : own t (LLRB.Tree.getByKey cmp k x) :=
  ⟨fun _ h => LLRB.Tree.All.getByKey (P := own t) h2 h, fun _ _ => trivial⟩

end

/-! ### Worlds -/

section
variable [Areas] {t u : TreeId} {w x y z : World K V}

/-- PutNode puts the nodes of `t` where they belong. -/
def EnvOk (t : TreeId) (e : Env) : Prop := ∀ n p, e.putLoc n = some p → writes t p

/-- Everything in the world points to what belongs to the same map, and the lists of the cache are well-formed. -/
structure Good (w : World K V) : Prop where
  node : ∀ i : Nat × Nat, own i.1 (w.node i)
  ps : ∀ i : Nat × Nat, own i.1 (w.ps i)
  tree : ∀ t, own t (w.trees t)
  disk : ∀ r d, w.disk r = some d → r.len ≠ 0 ∧ ∀ t, reads t (r.num, r.off) → own t d
  lru : ∃ l, w.lru.WF l

/-- Two worlds are the same as far as `t` is concerned. -/
structure Frame (t : TreeId) (x y : World K V) : Prop where
  node : ∀ i : Nat × Nat, i.1 = t → x.node i = y.node i
  ps : ∀ i : Nat × Nat, i.1 = t → x.ps i = y.ps i
  tag : ∀ i : Nat × Nat, i.1 = t → (x.lru.el i).tag = (y.lru.el i).tag
  tree : x.trees t = y.trees t
  next : x.next t = y.next t
  disk : ∀ r : Ref, reads t (r.num, r.off) → x.disk r = y.disk r

theorem Frame.refl (t : TreeId) (w : World K V) : Frame t w w := ⟨fun _ _ => rfl, fun _ _ => rfl, fun _ _ => rfl, rfl, rfl, fun _ _ => rfl⟩
theorem Frame.symm (h : Frame t x y) : Frame t y x :=
  ⟨fun i hi => (h.node i hi).symm, fun i hi => (h.ps i hi).symm, fun i hi => (h.tag i hi).symm, h.tree.symm, h.next.symm, fun r hr => (h.disk r hr).symm⟩
theorem Frame.trans (h : Frame t x y) (g : Frame t y z) : Frame t x z :=
  ⟨fun i hi => (h.node i hi).trans (g.node i hi), fun i hi => (h.ps i hi).trans (g.ps i hi), fun i hi => (h.tag i hi).trans (g.tag i hi), h.tree.trans g.tree, h.next.trans g.next,
    fun r hr => (h.disk r hr).trans (g.disk r hr)⟩

/-- The same, and the callbacks will behave the same. -/
def Agree (t : TreeId) (x y : World K V) : Prop := Frame t x y ∧ x.env = y.env

theorem Agree.look (h : Agree t x y) (hx : Good x) (hy : Good y) {r : Ref} (hr : own t r) : x.disk r = y.disk r := by
  by_cases hl : r.len = 0
  · have : ∀ {w : World K V}, Good w → w.disk r = none := fun hw => by
      cases hd : World.disk _ r with
      | none => rfl
      | some d => exact absurd hl (hw.disk r d hd).1
    rw [this hx, this hy]
  · exact h.1.disk r (hr hl)

/-- An action that stays within `t`: it keeps worlds in order, leaves what belongs to others alone, and does the same on worlds that are the same as
far as `t` is concerned. -/
structure Local [Own α] (t : TreeId) (m : M K V α) : Prop where
  good : ∀ w, Good w → EnvOk t w.env → Good (m w).2 ∧ EnvOk t (m w).2.env ∧ own t (m w).1
  frame : ∀ w, Good w → EnvOk t w.env → ∀ u, u ≠ t → Frame u w (m w).2
  same : ∀ x y, Good x → Good y → EnvOk t x.env → Agree t x y → (m x).1 = (m y).1 ∧ Agree t (m x).2 (m y).2

/-! ### Basic actions -/

namespace Local

theorem getN {i : Id} (hi : own t i) : Local t (BT.getN i : M K V _) where
  good w h he := ⟨h, he, fun a e => by cases e; exact hi ▸ h.node i⟩
  frame w _ _ u _ := .refl u w
  same x y _ _ _ h := ⟨by rw [BT.getN, BT.getN, h.1.node i hi], h⟩

theorem getP {i : Id} (hi : own t i) : Local t (BT.getP i : M K V _) where
  good w h he := ⟨h, he, fun a e => by cases e; exact hi ▸ h.ps i⟩
  frame w _ _ u _ := .refl u w
  same x y _ _ _ h := ⟨by rw [BT.getP, BT.getP, h.1.ps i hi], h⟩

theorem getT : Local t (BT.getT t : M K V _) where
  good w h he := ⟨h, he, fun a e => by cases e; exact h.tree t⟩
  frame w _ _ u _ := .refl u w
  same x y _ _ _ h := ⟨by rw [BT.getT, BT.getT, h.1.tree], h⟩

theorem tagOf {i : Id} (hi : own t i) : Local t (fun w => (Out.ok (w.lru.el i).tag, w) : M K V _) where
  good w h he := ⟨h, he, fun a e => trivial⟩
  frame w _ _ u _ := .refl u w
  same x y _ _ _ h := ⟨by dsimp only; rw [h.1.tag i hi], h⟩

theorem upd_own {γ : Type} [Own γ] {f : Id → γ} {i : Id} {a : γ} (h : ∀ i : Nat × Nat, own i.1 (f i)) (ha : own i.1 a) (j : Nat × Nat) : own j.1 (upd f i a j) := by
  by_cases hj : j = i
  · subst hj; simpa [upd] using ha
  · simpa [upd, hj] using h j

theorem upd_other {γ : Type} {f : Id → γ} {i : Id} {a : γ} (hi : own t i) (hu : u ≠ t) (j : Nat × Nat) (hj : j.1 = u) : f j = upd f i a j := by
  have : j ≠ i := by rintro rfl; exact hu (hj.symm.trans hi)
  simp [upd, this]

theorem upd_both {γ : Type} {f g : Id → γ} {i : Id} {a b : γ} (h : ∀ i : Nat × Nat, i.1 = t → f i = g i) (hab : a = b) (j : Nat × Nat) (hj : j.1 = t) : upd f i a j = upd g i b j := by
  by_cases hji : j = i
  · simp [upd, hji, hab]
  · simpa [upd, hji] using h j hj

theorem modN {i : Id} {f : NodeS K V → NodeS K V} (hi : own t i) (hf : ∀ n, own t n → own t (f n)) : Local t (BT.modN i f) where
  good w h he := ⟨{ h with node := upd_own h.node (by rw [show i.1 = t from hi]; exact hf _ (hi ▸ h.node i)) }, he, fun _ _ => trivial⟩
  frame w _ _ u hu := { Frame.refl u w with node := upd_other hi hu }
  same x y _ _ _ h := ⟨rfl, { h.1 with node := upd_both h.1.node (by rw [h.1.node i hi]) }, h.2⟩

theorem modP {i : Id} {f : PSum → PSum} (hi : own t i) (hf : ∀ n, own t n → own t (f n)) : Local t (BT.modP i f : M K V _) where
  good w h he := ⟨{ h with ps := upd_own h.ps (by rw [show i.1 = t from hi]; exact hf _ (hi ▸ h.ps i)) }, he, fun _ _ => trivial⟩
  frame w _ _ u hu := { Frame.refl u w with ps := upd_other hi hu }
  same x y _ _ _ h := ⟨rfl, { h.1 with ps := upd_both h.1.ps (by rw [h.1.ps i hi]) }, h.2⟩

theorem modT {f : TreeS → TreeS} (hf : ∀ n, own t n → own t (f n)) : Local t (BT.modT t f : M K V _) where
  good w h he := by
    refine ⟨{ h with tree := fun u => ?_ }, he, fun _ _ => trivial⟩
    by_cases hu : u = t
    · subst hu; simpa [BT.modT, upd] using hf _ (h.tree u)
    · simpa [BT.modT, upd, hu] using h.tree u
  frame w _ _ u hu := { Frame.refl u w with tree := by simp [BT.modT, upd, hu] }
  same x y _ _ _ h := ⟨rfl, { h.1 with tree := by simp [BT.modT, upd, h.1.tree] }, h.2⟩

theorem alloc {n : NodeS K V} (hn : own t n) : Local t (BT.alloc n) where
  good w h he := by
    obtain rfl := hn.1
    refine ⟨{ h with node := upd_own h.node (by exact hn), ps := upd_own h.ps ?_ }, he, fun a e => by cases e; rfl⟩
    exact ⟨nofun, nofun, nofun⟩
  frame w _ _ u hu := by
    obtain rfl := hn.1
    exact { Frame.refl u w with node := upd_other rfl hu, ps := upd_other rfl hu, next := by simp [BT.alloc, upd, hu] }
  same x y _ _ _ h := by
    obtain rfl := hn.1
    have ha : x.addr n.tree = y.addr n.tree := by rw [World.addr, World.addr, h.1.next]
    refine ⟨by simp [BT.alloc, ha], { h.1 with node := ?_, ps := ?_, next := ?_ }, h.2⟩
    · simp only [BT.alloc, ha]; exact upd_both h.1.node rfl
    · simp only [BT.alloc, ha]; exact upd_both h.1.ps rfl
    · simp [BT.alloc, upd, h.1.next]

theorem onCtl (f : Ctl → Ctl) : Local t (BT.onCtl t f : M K V _) where
  good w h he := by
    rw [BT.onCtl]
    split
    · exact ⟨{ h with }, he, fun _ _ => trivial⟩
    · exact ⟨h, he, fun _ _ => trivial⟩
  frame w _ _ u _ := by
    rw [BT.onCtl]
    split
    · exact { Frame.refl u w with }
    · exact .refl u w
  same x y _ _ _ h := by
    rw [BT.onCtl, BT.onCtl, h.1.tree]
    split
    · exact ⟨rfl, { h.1 with }, h.2⟩
    · exact ⟨rfl, h⟩

theorem startDrainer : Local t (BT.startDrainer t : M K V _) where
  good w := (onCtl (t := t) _).good w
  frame w := (onCtl (t := t) _).frame w
  same x y _ _ _ h := by
    rw [BT.startDrainer, BT.startDrainer, BT.onCtl, BT.onCtl, h.1.tree]
    split
    · exact ⟨rfl, { h.1 with }, h.2⟩
    · exact ⟨rfl, h⟩

theorem unpack : Local t (BT.unpack : M K V _) where
  good w h he := by
    simp only [BT.unpack]
    split
    · exact ⟨{ h with }, he, nofun⟩
    · exact ⟨{ h with }, he, fun _ _ => trivial⟩
  frame w _ _ u _ := by
    simp only [BT.unpack]
    split <;> exact { Frame.refl u w with }
  same x y _ _ _ h := by
    simp only [BT.unpack, h.2]
    split <;> exact ⟨rfl, { h.1 with }, rfl⟩
theorem pack : Local t (BT.pack : M K V _) where
  good w h he := by
    simp only [BT.pack]
    split
    · exact ⟨{ h with }, he, nofun⟩
    · exact ⟨{ h with }, he, fun _ _ => trivial⟩
  frame w _ _ u _ := by
    simp only [BT.pack]
    split <;> exact { Frame.refl u w with }
  same x y _ _ _ h := by
    simp only [BT.pack, h.2]
    split <;> exact ⟨rfl, { h.1 with }, rfl⟩

theorem getNode {r : Ref} (hr : own t r) : Local t (BT.getNode r : M K V _) where
  good w h he := by
    simp only [BT.getNode]
    split
    · exact ⟨{ h with }, he, nofun⟩
    · split
      · rename_i d hd
        refine ⟨{ h with }, he, fun a e => ?_⟩
        cases e
        have := h.disk r _ hd
        exact this.2 t (hr this.1)
      · exact ⟨{ h with }, he, nofun⟩
  frame w _ _ u _ := by
    simp only [BT.getNode]
    split
    · exact { Frame.refl u w with }
    · split <;> exact { Frame.refl u w with }
  same x y hx hy _ h := by
    simp only [BT.getNode, h.2, h.look hx hy hr]
    split
    · exact ⟨rfl, { h.1 with }, rfl⟩
    · split <;> exact ⟨rfl, { h.1 with }, rfl⟩

theorem ranged {l : List Ref} (hl : own t l) : Local t (BT.ranged l : M K V _) where
  good w h he := by
    refine ⟨h, he, fun a e => ?_⟩
    simp only [BT.ranged] at e
    cases e
    split
    · rename_i hp
      exact fun x hx => hl x ((List.isPerm_iff.1 hp).subset hx)
    · exact hl
  frame w _ _ u _ := .refl u w
  same x y _ _ _ h := by
    simp only [BT.ranged, h.2]
    exact ⟨trivial, h.1, h.2⟩

theorem discardDisk {r : Ref} (ht : Whole t) (hr : own t r) : Local t (BT.discardDisk r : M K V _) where
  good w h he := by
    simp only [BT.discardDisk]
    split
    · exact ⟨{ h with }, he, nofun⟩
    · split
      · exact ⟨{ h with }, he, nofun⟩
      · refine ⟨{ h with disk := fun r' d hd => ?_ }, he, fun _ _ => trivial⟩
        dsimp only at hd
        split at hd
        · cases hd
        · exact h.disk r' d hd
  frame w h _ u hu := by
    simp only [BT.discardDisk]
    split
    · exact { Frame.refl u w with }
    · split
      · exact { Frame.refl u w with }
      · rename_i d hd
        refine { Frame.refl u w with disk := fun r' hr' => ?_ }
        have : r' ≠ r := by rintro rfl; exact hu (Areas.apart (ht _ (hr (h.disk _ _ hd).1)) hr')
        simp [this]
  same x y hx hy _ h := by
    simp only [BT.discardDisk, h.2, h.look hx hy hr]
    split
    · exact ⟨rfl, { h.1 with }, rfl⟩
    · split
      · exact ⟨rfl, { h.1 with }, rfl⟩
      · refine ⟨rfl, { h.1 with disk := fun r' hr' => ?_ }, rfl⟩
        dsimp only
        split
        · rfl
        · exact h.1.disk r' hr'

theorem putNode {d : DiskNode K V} {n : Nat} (hd : own t d) (hn : n ≠ 0) : Local t (BT.putNode d n) where
  good w h he := by
    simp only [BT.putNode]
    split
    · exact ⟨{ h with }, he, nofun⟩
    · rename_i k o hp
      split
      · exact ⟨{ h with }, he, nofun⟩
      · refine ⟨{ h with disk := fun r' d' hd' => ?_ }, he, fun a e => ?_⟩
        · dsimp only at hd'
          split at hd'
          · rename_i e; subst e; cases hd'
            exact ⟨hn, fun u hu => Areas.apart (he _ _ hp) hu ▸ hd⟩
          · exact h.disk r' d' hd'
        · cases e; exact fun _ => Areas.both (he _ _ hp)
  frame w h he u hu := by
    simp only [BT.putNode]
    split
    · exact { Frame.refl u w with }
    · rename_i k o hp
      split
      · exact { Frame.refl u w with }
      · refine { Frame.refl u w with disk := fun r' hr' => ?_ }
        have : r' ≠ ⟨k, o, n⟩ := by rintro rfl; exact hu (Areas.apart (he _ _ hp) hr')
        simp [this]
  same x y hx hy he h := by
    simp only [BT.putNode, h.2]
    split
    · exact ⟨rfl, { h.1 with }, rfl⟩
    · rename_i k o hp
      have hr : x.disk ⟨k, o, n⟩ = y.disk ⟨k, o, n⟩ := h.1.disk _ (Areas.both (he _ _ (by rw [h.2]; exact hp)))
      rw [hr]
      split
      · exact ⟨rfl, { h.1 with }, rfl⟩
      · refine ⟨rfl, { h.1 with disk := fun r' hr' => ?_ }, rfl⟩
        dsimp only
        split
        · rfl
        · exact h.1.disk r' hr'

/-- A step of the cache's lists that concerns nodes of `t` only. -/
structure _root_.SM.BT.LruLocal (t : TreeId) (f : LruS → Option LruS) : Prop where
  good : ∀ s l s', s.WF l → f s = some s' → (∃ l', s'.WF l') ∧ ∀ i : Nat × Nat, i.1 ≠ t → (s'.el i).tag = (s.el i).tag
  same : ∀ s s' l l', s.WF l → s'.WF l' → (∀ i : Nat × Nat, i.1 = t → (s.el i).tag = (s'.el i).tag) →
    (f s = none ∧ f s' = none) ∨ ∃ r r', f s = some r ∧ f s' = some r' ∧ ∀ i : Nat × Nat, i.1 = t → (r.el i).tag = (r'.el i).tag

theorem _root_.SM.BT.LruLocal.used {i : Id} (hi : own t i) : LruLocal t fun s => s.used i where
  good s l s' h e := by
    have ht : (s.el i).tag ≠ .noLRU := fun ht => by simp [LruS.used, ht] at e
    obtain ⟨r, h1, h2, h3⟩ := LruS.used_spec h ht
    rw [h1] at e; cases e
    exact ⟨⟨_, h2⟩, fun j _ => h3 j⟩
  same s s' l l' h h' e := by
    by_cases ht : (s.el i).tag = .noLRU
    · exact .inl ⟨by simp [LruS.used, ht], by simp [LruS.used, ← e i hi, ht]⟩
    · obtain ⟨r, h1, h2, h3⟩ := LruS.used_spec h ht
      obtain ⟨r', h1', h2', h3'⟩ := LruS.used_spec h' (e i hi ▸ ht)
      exact .inr ⟨r, r', h1, h1', fun j hj => by rw [h3, h3', e j hj]⟩

theorem _root_.SM.BT.LruLocal.place {i : Id} (d : Bool) (hi : own t i) : LruLocal t fun s => s.place d i where
  good s l s' h e := by
    obtain ⟨r, h1, h2, h3, h4⟩ := LruS.place_spec h d i
    rw [h1] at e; cases e
    exact ⟨⟨_, h2⟩, fun j hj => h3 j (by rintro rfl; exact hj hi)⟩
  same s s' l l' h h' e := by
    obtain ⟨r, h1, h2, h3, h4⟩ := LruS.place_spec h d i
    obtain ⟨r', h1', h2', h3', h4'⟩ := LruS.place_spec h' d i
    refine .inr ⟨r, r', h1, h1', fun j hj => ?_⟩
    by_cases hji : j = i
    · rw [hji, h4, h4']
    · rw [h3 j hji, h3' j hji, e j hj]

theorem _root_.SM.BT.LruLocal.drop {i : Id} (hi : own t i) : LruLocal t fun s => s.drop i where
  good s l s' h e := by
    have ht : (s.el i).tag ≠ .noLRU := fun ht => by simp [LruS.drop, ht] at e
    obtain ⟨r, h1, h2, h3, h4⟩ := LruS.drop_spec h ht
    rw [h1] at e; cases e
    exact ⟨⟨_, h2⟩, fun j hj => h3 j (by rintro rfl; exact hj hi)⟩
  same s s' l l' h h' e := by
    by_cases ht : (s.el i).tag = .noLRU
    · exact .inl ⟨by simp [LruS.drop, ht], by simp [LruS.drop, ← e i hi, ht]⟩
    · obtain ⟨r, h1, h2, h3, h4⟩ := LruS.drop_spec h ht
      obtain ⟨r', h1', h2', h3', h4'⟩ := LruS.drop_spec h' (e i hi ▸ ht)
      refine .inr ⟨r, r', h1, h1', fun j hj => ?_⟩
      by_cases hji : j = i
      · rw [hji, h4, h4']
      · rw [h3 j hji, h3' j hji, e j hj]

theorem _root_.SM.BT.LruLocal.init {i : Id} (hi : own t i) : LruLocal t fun s => if (s.el i).tag = .noLRU then some (s.init i) else none where
  good s l s' h e := by
    by_cases ht : (s.el i).tag = .noLRU
    · rw [if_pos ht, LruS.init_spec h ht] at e
      cases e
      exact ⟨⟨l, h⟩, fun _ _ => rfl⟩
    · rw [if_neg ht] at e; cases e
  same s s' l l' h h' e := by
    by_cases ht : (s.el i).tag = .noLRU
    · have ht' : (s'.el i).tag = .noLRU := e i hi ▸ ht
      exact .inr ⟨s, s', by rw [if_pos ht, LruS.init_spec h ht], by rw [if_pos ht', LruS.init_spec h' ht'], e⟩
    · exact .inl ⟨if_neg ht, if_neg (e i hi ▸ ht)⟩

theorem onLru {f : LruS → Option LruS} (hf : LruLocal t f) : Local t (BT.onLru t f : M K V _) where
  good w h he := by
    obtain ⟨l, hl⟩ := h.lru
    rw [BT.onLru]
    split
    · split
      · rename_i s hs
        exact ⟨{ h with lru := (hf.good _ _ _ hl hs).1 }, he, fun _ _ => trivial⟩
      · exact ⟨h, he, nofun⟩
    · exact ⟨h, he, fun _ _ => trivial⟩
  frame w h _ u hu := by
    obtain ⟨l, hl⟩ := h.lru
    rw [BT.onLru]
    split
    · split
      · rename_i s hs
        exact { Frame.refl u w with tag := fun i hi => ((hf.good _ _ _ hl hs).2 i (hi.trans_ne hu)).symm }
      · exact .refl u w
    · exact .refl u w
  same x y hx hy _ h := by
    obtain ⟨l, hl⟩ := hx.lru
    obtain ⟨l', hl'⟩ := hy.lru
    rw [BT.onLru, BT.onLru, h.1.tree]
    split
    · rcases hf.same _ _ _ _ hl hl' h.1.tag with ⟨e1, e2⟩ | ⟨r, r', e1, e2, e3⟩
      · rw [e1, e2]; exact ⟨rfl, h⟩
      · rw [e1, e2]; exact ⟨rfl, { h.1 with tag := e3 }, h.2⟩
    · exact ⟨rfl, h⟩

end Local

end

end SM.BT

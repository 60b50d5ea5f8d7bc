import Verif.LLRB.Model

/-! The values in a tree after an operation are those before it and the one put in; nothing is assumed of the tree. -/

namespace SM.LLRB.Tree

variable {K V : Type} {P : V → Prop}

/-- All values in the tree satisfy `P`. -/
def All (P : V → Prop) : Tree K V → Prop
  | nil => True
  | node _ v l r _ _ => P v ∧ l.All P ∧ r.All P

theorem All.blacken {t : Tree K V} (h : t.All P) : t.blacken.All P := by cases t <;> exact h

theorem All.toggle {t t' : Tree K V} (h : t.All P) (e : t.toggle? = some t') : t'.All P := by
  cases t with
  | nil => cases e
  | node k v l r c n => cases e; exact h

theorem All.left {t t' : Tree K V} (h : t.All P) (e : t.left? = some t') : t'.All P := by
  cases t with
  | nil => cases e
  | node k v l r c n => cases e; exact h.2.1

theorem All.right {t t' : Tree K V} (h : t.All P) (e : t.right? = some t') : t'.All P := by
  cases t with
  | nil => cases e
  | node k v l r c n => cases e; exact h.2.2

theorem All.colorFlip {t t' : Tree K V} (h : t.All P) (e : t.colorFlip = some t') : t'.All P := by
  cases t with
  | nil => cases e
  | node k v l r c n =>
    obtain ⟨h1, h2, h3⟩ := h
    simp only [Tree.colorFlip] at e
    cases hl : l.toggle? with
    | none => simp [hl] at e
    | some l' =>
      cases hr : r.toggle? with
      | none => simp [hl, hr] at e
      | some r' =>
        simp only [hl, hr, Option.bind_eq_bind, Option.bind_some, Option.pure_def, Option.some.injEq] at e
        subst e
        exact ⟨h1, h2.toggle hl, h3.toggle hr⟩

theorem All.rotateLeft {t t' : Tree K V} (h : t.All P) (e : t.rotateLeft = some t') : t'.All P := by
  match t, e with
  | node k v l (node rk rv rl rr _ rn) c n, e =>
    cases e
    obtain ⟨h1, h2, h3, h4, h5⟩ := h
    exact ⟨h3, ⟨h1, h2, h4⟩, h5⟩

theorem All.rotateRight {t t' : Tree K V} (h : t.All P) (e : t.rotateRight = some t') : t'.All P := by
  match t, e with
  | node k v (node lk lv ll lr _ ln) r c n, e =>
    cases e
    obtain ⟨h1, ⟨h2, h3, h4⟩, h5⟩ := h
    exact ⟨h2, h3, h1, h4, h5⟩

theorem bind_some {α β : Type} {o : Option α} {f : α → Option β} {b : β} (h : (o >>= f) = some b) : ∃ a, o = some a ∧ f a = some b := by
  cases o with
  | none => cases h
  | some a => exact ⟨a, rfl, h⟩

theorem All.moveRedLeft {t t' : Tree K V} (h : t.All P) (e : t.moveRedLeft = some t') : t'.All P := by
  obtain ⟨t1, e1, e⟩ := bind_some e
  have h1 := h.colorFlip e1
  cases t1 with
  | nil => cases e
  | node k v l r c n =>
    obtain ⟨rl, e2, e⟩ := bind_some e
    split at e
    · obtain ⟨r', e3, e⟩ := bind_some e
      obtain ⟨t2, e4, e⟩ := bind_some e
      exact (All.rotateLeft (P := P) (t := node k v l r' c n) ⟨h1.1, h1.2.1, h1.2.2.rotateRight e3⟩ e4).colorFlip e
    · cases e; exact h1

theorem All.moveRedRight {t t' : Tree K V} (h : t.All P) (e : t.moveRedRight = some t') : t'.All P := by
  obtain ⟨t1, e1, e⟩ := bind_some e
  have h1 := h.colorFlip e1
  cases t1 with
  | nil => cases e
  | node k v l r c n =>
    obtain ⟨rl, e2, e⟩ := bind_some e
    split at e
    · obtain ⟨t2, e4, e⟩ := bind_some e
      exact (h1.rotateRight e4).colorFlip e
    · cases e; exact h1

theorem All.fixUp {t t' : Tree K V} (h : t.All P) (e : t.fixUp = some t') : t'.All P := by
  have h1 : ∀ {t t' : Tree K V}, t.All P → t.fixUp1 = some t' → t'.All P := fun h e => by
    obtain ⟨b, -, e⟩ := bind_some e
    split at e
    · exact h.rotateLeft e
    · cases e; exact h
  have h2 : ∀ {t t' : Tree K V}, t.All P → t.fixUp2 = some t' → t'.All P := fun h e => by
    obtain ⟨b, -, e⟩ := bind_some e
    split at e
    · exact h.rotateRight e
    · cases e; exact h
  have h3 : ∀ {t t' : Tree K V}, t.All P → t.fixUp3 = some t' → t'.All P := fun h e => by
    obtain ⟨b, -, e⟩ := bind_some e
    split at e
    · exact h.colorFlip e
    · cases e; exact h
  obtain ⟨t1, e1, e⟩ := bind_some e
  obtain ⟨t2, e2, e⟩ := bind_some e
  exact h3 (h2 (h1 h e1) e2) e

theorem All.insert {cmp : Compare K} {key : K} {value : V} (hv : P value) : ∀ {t t' : Tree K V}, t.All P → t.insert cmp key value = some (.ok t') → t'.All P
  | nil, t', _, e => by cases e; exact ⟨hv, trivial, trivial⟩
  | node k v l r c n, t', h, e => by
      simp only [Tree.insert] at e
      split at e
      · cases e
      · split at e
        · obtain ⟨x, e1, e⟩ := bind_some e
          split at e
          · cases e
          · cases e
          · obtain ⟨x, e2, e⟩ := bind_some e
            cases e
            exact All.fixUp (P := P) (t := node k v _ r c n) ⟨h.1, All.insert hv h.2.1 e1, h.2.2⟩ e2
        · split at e
          · obtain ⟨x, e1, e⟩ := bind_some e
            split at e
            · cases e
            · cases e
            · obtain ⟨x, e2, e⟩ := bind_some e
              cases e
              exact All.fixUp (P := P) (t := node k v l _ c n) ⟨h.1, h.2.1, All.insert hv h.2.2 e1⟩ e2
          · cases e

theorem All.postInsert {cmp : Compare K} {key : K} : ∀ {t t' : Tree K V}, t.All P → t.postInsertAdjustLen cmp key = some t' → t'.All P
  | nil, t', _, e => by cases e
  | node k v l r c n, t', h, e => by
      simp only [postInsertAdjustLen] at e
      split at e
      · cases e; exact h
      · split at e
        · obtain ⟨x, e1, e⟩ := bind_some e
          cases e
          exact ⟨h.1, All.postInsert h.2.1 e1, h.2.2⟩
        · split at e
          · obtain ⟨x, e1, e⟩ := bind_some e
            cases e
            exact ⟨h.1, h.2.1, All.postInsert h.2.2 e1⟩
          · cases e; exact h

theorem All.preIndex : ∀ {t t' : Tree K V} {index : Int} {key : K}, t.All P → t.preDeleteByIndexAdjustLen index = some (t', key) → t'.All P
  | nil, t', _, _, _, e => by cases e
  | node k v l r c n, t', index, key, h, e => by
      simp only [preDeleteByIndexAdjustLen] at e
      split at e
      · obtain ⟨⟨l', k'⟩, e1, e⟩ := bind_some e
        cases e
        exact ⟨h.1, All.preIndex h.2.1 e1, h.2.2⟩
      · split at e
        · obtain ⟨⟨l', k'⟩, e1, e⟩ := bind_some e
          cases e
          exact ⟨h.1, h.2.1, All.preIndex h.2.2 e1⟩
        · cases e; exact h

theorem All.preKey {cmp : Compare K} {key : K} : ∀ {t t' : Tree K V} {b : Bool}, t.All P → t.preDeleteByKeyAdjustLen cmp key = .ok (t', b) → t'.All P
  | nil, t', _, _, e => by cases e; trivial
  | node k v l r c n, t', b, h, e => by
      simp only [preDeleteByKeyAdjustLen] at e
      split at e
      · cases e
      · split at e
        · split at e
          · cases e
          · rename_i e1
            cases e
            exact ⟨h.1, All.preKey h.2.1 e1, h.2.2⟩
        · split at e
          · split at e
            · cases e
            · rename_i e1
              cases e
              exact ⟨h.1, h.2.1, All.preKey h.2.2 e1⟩
          · cases e; exact h

theorem All.prepLeft {t t' : Tree K V} (h : t.All P) (e : t.prepLeft = some t') : t'.All P := by
  obtain ⟨x, -, e⟩ := bind_some e
  obtain ⟨x, -, e⟩ := bind_some e
  split at e
  · exact h.moveRedLeft e
  · cases e; exact h

theorem All.deleteMin : ∀ {fuel : Nat} {t t' : Tree K V} {k : K} {v : V}, t.All P → t.deleteMin fuel = some (t', k, v) → t'.All P ∧ P v
  | 0, t, t', k, v, _, e => by simp [Tree.deleteMin] at e
  | fuel + 1, nil, t', k, v, _, e => by simp [Tree.deleteMin] at e
  | fuel + 1, node _ _ nil _ _ _, t', k, v, h, e => by
      simp only [Tree.deleteMin, Option.some.injEq, Prod.mk.injEq] at e
      obtain ⟨rfl, -, rfl⟩ := e
      exact ⟨trivial, h.1⟩
  | fuel + 1, node k0 v0 (node lk lv ll lr lc ln) r c n, t', k, v, h, e => by
      simp only [Tree.deleteMin] at e
      obtain ⟨t1, e1, e⟩ := bind_some e
      have h1 := h.prepLeft e1
      cases t1 with
      | nil => cases e
      | node k1 v1 l1 r1 c1 n1 =>
        obtain ⟨⟨l', mk, mv⟩, e2, e⟩ := bind_some e
        obtain ⟨t2, e3, e⟩ := bind_some e
        cases e
        have h2 := All.deleteMin h1.2.1 e2
        exact ⟨All.fixUp (P := P) (t := node k1 v1 l' r1 c1 (n1 - 1)) ⟨h1.1, h2.1, h1.2.2⟩ e3, h2.2⟩

theorem All.deleteStep1 {cmp : Compare K} {key : K} {res : Int} {t t' : Tree K V} {o : Except Err Int} (h : t.All P) (e : t.deleteStep1 cmp key res = some (t', o)) : t'.All P := by
  obtain ⟨x, -, e⟩ := bind_some e
  split at e
  · obtain ⟨t1, e1, e⟩ := bind_some e
    obtain ⟨y, -, e⟩ := bind_some e
    cases e
    exact h.rotateRight e1
  · cases e; exact h

theorem All.deleteStep2 {cmp : Compare K} {key : K} {res : Int} {t t' : Tree K V} {o : Except Err Int} (h : t.All P) (e : t.deleteStep2 cmp key res = some (t', o)) : t'.All P := by
  obtain ⟨x, -, e⟩ := bind_some e
  obtain ⟨x, -, e⟩ := bind_some e
  split at e
  · obtain ⟨t1, e1, e⟩ := bind_some e
    obtain ⟨y, -, e⟩ := bind_some e
    cases e
    exact h.moveRedRight e1
  · cases e; exact h

theorem All.delete {cmp : Compare K} {key : K} : ∀ {fuel : Nat} {t t' : Tree K V} {o : Option Err}, t.All P → t.delete cmp key fuel = some (t', o) → t'.All P
  | 0, _, _, _, _, e => by cases e
  | fuel + 1, t, t', o, h, e => by
      simp only [Tree.delete] at e
      obtain ⟨x, -, e⟩ := bind_some e
      split at e
      · cases e; exact h
      · split at e
        · obtain ⟨t1, e1, e⟩ := bind_some e
          have h1 := h.prepLeft e1
          split at e
          · cases e
          · obtain ⟨⟨l', o'⟩, e2, e⟩ := bind_some e
            have h2 := All.delete h1.2.1 e2
            split at e
            · rename_i e3; cases e3; cases e; exact ⟨h1.1, h2, h1.2.2⟩
            · rename_i e3; cases e3
              obtain ⟨t3, e4, e⟩ := bind_some e
              cases e
              exact All.fixUp (P := P) (t := node _ _ _ _ _ _) ⟨h1.1, h2, h1.2.2⟩ e4
        · obtain ⟨⟨t1, o1⟩, e1, e⟩ := bind_some e
          have h1 := h.deleteStep1 e1
          split at e
          · rename_i e3; cases e3; cases e; exact h1
          · rename_i e3; cases e3
            obtain ⟨y, -, e⟩ := bind_some e
            split at e
            · cases e; trivial
            · obtain ⟨⟨t2, o2⟩, e2, e⟩ := bind_some e
              have h2 := h1.deleteStep2 e2
              split at e
              · rename_i e3; cases e3; cases e; exact h2
              · cases e
              · rename_i e3; cases e3
                split at e
                · obtain ⟨⟨r', mk, mv⟩, e4, e⟩ := bind_some e
                  obtain ⟨t5, e5, e⟩ := bind_some e
                  cases e
                  have h4 := h2.2.2.deleteMin e4
                  exact All.fixUp (P := P) (t := node _ _ _ _ _ _) ⟨h4.2, h2.2.1, h4.1⟩ e5
                · obtain ⟨⟨r', o'⟩, e4, e⟩ := bind_some e
                  have h4 := All.delete h2.2.2 e4
                  split at e
                  · rename_i e3; cases e3; cases e; exact ⟨h2.1, h2.2.1, h4⟩
                  · rename_i e3; cases e3
                    obtain ⟨t3, e5, e⟩ := bind_some e
                    cases e
                    exact All.fixUp (P := P) (t := node _ _ _ _ _ _) ⟨h2.1, h2.2.1, h4⟩ e5

theorem All.deleteByIndex {cmp : Compare K} {index : Int} {t t' : Tree K V} {x : Bool × Option Err} (h : t.All P) (e : t.deleteByIndex cmp index = some (x, t')) : t'.All P := by
  simp only [Tree.deleteByIndex] at e
  split at e
  · cases e; exact h
  · obtain ⟨⟨t1, k⟩, e1, e⟩ := bind_some e
    obtain ⟨⟨t2, o⟩, e2, e⟩ := bind_some e
    have h2 := (h.preIndex e1).delete e2
    split at e
    · rename_i e3; cases e3; cases e; exact h2
    · rename_i e3; cases e3; cases e; exact h2.blacken

theorem All.deleteByKey {cmp : Compare K} {key : K} {t t' : Tree K V} {x : Bool × Option Err} (h : t.All P) (e : t.deleteByKey cmp key = some (x, t')) : t'.All P := by
  simp only [Tree.deleteByKey] at e
  split at e
  · cases e; exact h
  · rename_i e1; cases e; exact h.preKey e1
  · rename_i e1
    obtain ⟨⟨t2, o⟩, e2, e⟩ := bind_some e
    have h2 := (h.preKey e1).delete e2
    split at e
    · rename_i e3; cases e3; cases e; exact h2
    · rename_i e3; cases e3; cases e; exact h2.blacken

theorem All.getByIndexLoop {index : Int} : ∀ {t : Tree K V} {m : Int} {x : K × V}, t.All P → t.getByIndexLoop index m = some x → P x.2
  | nil, _, _, _, e => by cases e
  | node k v l r c n, m, x, h, e => by
      simp only [Tree.getByIndexLoop] at e
      split at e
      · cases e; exact h.1
      · split at e
        · split at e
          · cases e
          · exact All.getByIndexLoop h.2.1 e
        · split at e
          · cases e
          · exact All.getByIndexLoop h.2.2 e

theorem All.getByIndex {index : Int} {t : Tree K V} {x : K × V} (h : t.All P) (e : t.getByIndex index = some (some x)) : P x.2 := by
  cases t with
  | nil => cases e
  | node k v l r c n =>
    simp only [Tree.getByIndex] at e
    split at e
    · cases e
    · rw [Option.map_eq_some_iff] at e
      obtain ⟨y, e1, e⟩ := e
      cases e
      exact h.getByIndexLoop e1

theorem All.getByKey {cmp : Compare K} {key : K} : ∀ {t : Tree K V} {v : V}, t.All P → (t.getByKey cmp key).1 = some v → P v
  | nil, _, _, e => by cases e
  | node k v l r c n, _, h, e => by
      simp only [Tree.getByKey] at e
      split at e
      · cases e
      · split at e
        · exact All.getByKey h.2.1 e
        · split at e
          · exact All.getByKey h.2.2 e
          · cases e; exact h.1

theorem All.patchByIndexLoop {index : Int} {value : V} (hv : P value) : ∀ {t t' : Tree K V} {m : Int}, t.All P → t.patchByIndexLoop index value m = some t' → t'.All P
  | nil, _, _, _, e => by cases e
  | node k v l r c n, t', m, h, e => by
      simp only [Tree.patchByIndexLoop] at e
      split at e
      · cases e; exact ⟨hv, h.2⟩
      · split at e
        · split at e
          · cases e
          · obtain ⟨x, e1, e⟩ := bind_some e
            cases e
            exact ⟨h.1, All.patchByIndexLoop hv h.2.1 e1, h.2.2⟩
        · split at e
          · cases e
          · obtain ⟨x, e1, e⟩ := bind_some e
            cases e
            exact ⟨h.1, h.2.1, All.patchByIndexLoop hv h.2.2 e1⟩

theorem All.patchByIndex {index : Int} {value : V} {t t' : Tree K V} {x : Bool × Option Err} (hv : P value) (h : t.All P) (e : t.patchByIndex index value = some (x, t')) : t'.All P := by
  cases t with
  | nil => cases e; trivial
  | node k v l r c n =>
    simp only [Tree.patchByIndex] at e
    split at e
    · cases e; exact h
    · obtain ⟨y, e1, e⟩ := bind_some e
      cases e
      exact h.patchByIndexLoop hv e1

theorem All.patchByKey {cmp : Compare K} {key : K} {value : V} (hv : P value) : ∀ {t : Tree K V}, t.All P → (t.patchByKey cmp key value).2.All P
  | nil, _ => trivial
  | node k v l r c n, h => by
      simp only [Tree.patchByKey]
      split
      · exact h
      · split
        · exact ⟨h.1, All.patchByKey hv h.2.1, h.2.2⟩
        · split
          · exact ⟨h.1, h.2.1, All.patchByKey hv h.2.2⟩
          · exact ⟨hv, h.2⟩

theorem All.put {cmp : Compare K} {key : K} {value : V} {t t' : Tree K V} {x : Bool × Option Err} (hv : P value) (h : t.All P) (e : t.put cmp key value = some (x, t')) : t'.All P := by
  obtain ⟨y, e1, e⟩ := bind_some e
  split at e
  · cases e; exact h
  · cases e; exact h
  · obtain ⟨t2, e2, e⟩ := bind_some e
    cases e
    exact ((h.insert hv e1).postInsert e2).blacken

end SM.LLRB.Tree

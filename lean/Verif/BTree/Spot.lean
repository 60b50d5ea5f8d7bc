import Verif.BTree.Rest

/-! Finding nodes again after the tree around them has changed, and handing children to another parent. -/

namespace SM.BT

variable {K V : Type}

/-- A node just made: not on any cache list, nowhere on disk. -/
def Odd.fresh : Odd K V := ⟨.zero, true, none, 0⟩

/-- A loaded node: dirty (`none`) or odd (`some`). -/
def Gt.Is {h : Nat} (x : Id) (s : Option (Odd K V)) : Gt K V h → Prop
  | Nd.unl _ _ => False
  | Nd.ld i st _ => s = none ∧ st = none ∧ i = x
  | Nd.od i o _ => s = some o ∧ i = x

/-- A subtree, all nodes above it being dirty. -/
def Sub {a : Nat} (t : Gt K V a) : {h : Nat} → Gt K V h → Prop
  | 0, g => a = 0 ∧ t ≍ (@_root_.id (Gt K V 0) g)
  | h + 1, g => (a = h + 1 ∧ t ≍ (@_root_.id (Gt K V (h + 1)) g)) ∨
      ∃ (i : Id) (r : Row K (Gt K V h)), (@_root_.id (Gt K V (h + 1)) g) = Gt.inner i none r ∧ ∃ c ∈ r.kids, Sub t c

section
variable {P : Par K} {h H : Nat} {w0 : World K V} {T : Tot K V} {w : World K V} {ρ : Option Id} {R : B K V}
  {a : Nat} {t : Gt K V a}

theorem sub_self : ∀ {a : Nat} (t : Gt K V a), Sub t t
  | 0, _ => ⟨rfl, HEq.rfl⟩
  | _ + 1, _ => .inl ⟨rfl, HEq.rfl⟩

theorem sub_inner {i : Id} {r : Row K (Gt K V h)} {c : Gt K V h} (hc : c ∈ r.kids) (ht : Sub t c) : Sub t (Gt.inner i none r) :=
  .inr ⟨i, r, rfl, c, hc, ht⟩

theorem Sub.cases {g : Gt K V h} (hs : Sub t g) : (a = h ∧ t ≍ g) ∨ ∃ (n : Nat) (e : h = n + 1) (i : Id) (r : Row K (Gt K V n)),
    g = e ▸ Gt.inner i none r ∧ ∃ c ∈ r.kids, Sub t c := by
  cases h with
  | zero => exact .inl hs
  | succ h =>
    rcases hs with hs | ⟨i, r, h1, h2⟩
    · exact .inl hs
    · exact .inr ⟨h, rfl, i, r, h1, h2⟩

/-- The surroundings of the subtree. -/
theorem Sub.ctx : ∀ {h : Nat} {g : Gt K V h} (C : Ctx K V H h), C.dirty = C → Sub t g → ∃ D : Ctx K V H a, D.dirty = D ∧ C.plug g = D.plug t
  | 0, g, C, hC, ht => by
      obtain ⟨rfl, ht⟩ := ht
      obtain rfl := eq_of_heq ht
      exact ⟨C, hC, rfl⟩
  | h + 1, g, C, hC, ht => by
      rcases ht with ⟨rfl, ht⟩ | ⟨i, r, e, c, hc, ht⟩
      · obtain rfl := eq_of_heq ht
        exact ⟨C, hC, rfl⟩
      · obtain ⟨k1, k2, ek⟩ := List.append_of_mem hc
        obtain ⟨pre, post, e', -, -⟩ := Row.split ek
        obtain ⟨D, h1, h2⟩ := Sub.ctx (Ctx.fr i none pre post C) (Ctx.dirty_fr.2 ⟨rfl, hC⟩) ht
        exact ⟨D, h1, by rw [← h2, Ctx.plug, ← e']; exact congrArg C.plug e⟩

theorem Sub.le : ∀ {h : Nat} {g : Gt K V h}, Sub t g → a ≤ h
  | 0, _, ht => Nat.le_of_eq ht.1
  | h + 1, _, ht => by
      rcases ht with ⟨rfl, -⟩ | ⟨i, r, e, c, hc, ht⟩
      · exact Nat.le_refl _
      · exact Nat.le_succ_of_le ht.le

theorem Sub.up : ∀ {h : Nat} {g : Gt K V h} (C : Ctx K V H h), C.dirty = C → Sub t g → Sub t (C.plug g)
  | _, _, .top, _, ht => ht
  | _, g, .fr i st pre post up, hC, ht => by
      obtain ⟨rfl, hC'⟩ := Ctx.dirty_fr.1 hC
      exact Sub.up up hC' (sub_inner (c := g) (by simp) ht)

/-- Another subtree of smaller height stays where it is. -/
theorem Sub.subst : ∀ {h : Nat} {g g' : Gt K V h} (C : Ctx K V H h), a ≤ h → (Sub t g → Sub t g') →
    Sub t (C.plug g) → Sub t (C.plug g')
  | _, _, _, .top, _, hh, ht => hh ht
  | h, g, g', .fr i st pre post up, ha, hh, ht => by
      refine Sub.subst up (by omega) ?_ ht
      rintro (⟨rfl, h1⟩ | ⟨i', r, e, c, hc, hu⟩)
      · omega
      · cases e
        simp only [Row.kids_plug, List.mem_append, List.mem_cons] at hc
        rcases hc with hc | rfl | hc
        · exact sub_inner (c := c) (by simp [hc]) hu
        · exact sub_inner (c := g') (by simp) (hh hu)
        · refine sub_inner (c := c) ?_ hu
          rw [Row.kids_plug]; exact List.mem_append.2 (.inr (List.mem_cons_of_mem _ hc))

/-- Nothing is found below an odd node. -/
theorem Sub.odd {g : Gt K V h} {x : Id} {o : Odd K V} (hg : g.Is x (some o)) (ht : Sub t g) : a = h := by
  cases h with
  | zero => exact ht.1
  | succ h =>
    rcases ht with ⟨rfl, -⟩ | ⟨i, r, e, -⟩
    · rfl
    · replace e : g = Gt.inner i none r := e
      subst e
      simp [Gt.Is, Gt.inner] at hg

/-! ### Another parent -/

theorem bun_parent (q : Pos) (p : Option Id) : ∀ {h : Nat} (t : Gt K V h), ∃ (c : Cell K V) (rest : B K V), bun P q t = cellB c + rest ∧
    bun P ⟨p, q.root⟩ t = cellB { c with parent := p } + rest ∧ c.id = t.id
  | 0, t => by
      rcases t.cases0 with ⟨i, d, rfl⟩ | ⟨i, st, l, rfl⟩ | ⟨i, o, l, rfl⟩
      · exact ⟨_, _, by rw [bun_unl, add_assoc], by rw [bun_unl, add_assoc]; rfl, rfl⟩
      · exact ⟨_, _, by rw [bun_leaf, leafB, add_assoc], by rw [bun_leaf, leafB, add_assoc]; rfl, rfl⟩
      · exact ⟨_, _, by rw [bun_odLeaf, oddB, add_assoc], by rw [bun_odLeaf, oddB, add_assoc]; rfl, rfl⟩
  | h + 1, t => by
      rcases t.casesS with ⟨i, d, rfl⟩ | ⟨i, st, r, rfl⟩ | ⟨i, o, r, rfl⟩
      · exact ⟨_, _, by rw [bun_unl, add_assoc], by rw [bun_unl, add_assoc]; rfl, rfl⟩
      · exact ⟨_, _, by rw [bun_inner, innerB, add_assoc, add_assoc], by rw [bun_inner, innerB, add_assoc, add_assoc]; rfl, rfl⟩
      · exact ⟨_, _, by rw [bun_odInner, oddB, add_assoc, add_assoc], by rw [bun_odInner, oddB, add_assoc, add_assoc]; rfl, rfl⟩

theorem I.reparent {q : Pos} {t : Gt K V h} (hI : I P w0 T w ρ (bun P q t + R)) (p : Option Id) :
    ∃ w', BT.modN t.id (fun x => { x with parent := p }) w = (.ok (), w') ∧ I P w0 T w' ρ (bun P ⟨p, q.root⟩ t + R) := by
  obtain ⟨c, rest, e1, e2, e3⟩ := bun_parent (P := P) q p t
  rw [e1, add_assoc] at hI
  obtain ⟨w', h1, h2⟩ := hI.modN { c with parent := p } rfl rfl (f := fun x => { x with parent := p })
    (fun n hn => ⟨hn.tree, rfl, hn.root, hn.ref, hn.dirty, hn.body.congr rfl rfl rfl rfl rfl rfl⟩)
  exact ⟨w', by rw [← e3]; exact h1, h2.eq (by rw [e2, add_assoc])⟩

/-- The counts of nodes whose entries are being moved do not matter. -/
theorem I.modItems {c : Cell K V} {ld leaf : Bool} {items : Nat} {left : Option Id} {l : List (K × Val V)}
    (hI : I P w0 T w ρ (cellB c + R)) (hb : c.body = .raw ld items leaf left l) (f : Nat → Nat) :
    ∃ w', BT.modN c.id (fun x => { x with items := f x.items }) w = (.ok (), w') ∧
      I P w0 T w' ρ (cellB { c with body := .raw ld (f items) leaf left l } + R) := by
  obtain ⟨w', h1, h2⟩ := hI.modN { c with body := .raw ld (f items) leaf left l } rfl (by simp [hb, Body.kids])
    (f := fun x => { x with items := f x.items }) (by
      intro n hn
      have hh := hn.body
      rw [hb] at hh
      exact ⟨hn.tree, hn.parent, hn.root, hn.ref, hn.dirty, ⟨hh.1, hh.2.1, by simp [hh.2.2.1], hh.2.2.2.1, hh.2.2.2.2⟩⟩)
  exact ⟨w', h1, h2⟩

theorem I.setLeft {c : Cell K V} {ld leaf : Bool} {items : Nat} {left : Option Id} {l : List (K × Val V)}
    (hI : I P w0 T w ρ (cellB c + R)) (hb : c.body = .raw ld items leaf left l) (left' : Option Id) :
    ∃ w', BT.modN c.id (fun x => { x with left := left' }) w = (.ok (), w') ∧
      I P w0 T w' ρ (cellB { c with body := .raw ld items leaf left' l } + R) := by
  obtain ⟨w', h1, h2⟩ := hI.modN { c with body := .raw ld items leaf left' l } rfl (by simp [hb, Body.kids])
    (f := fun x => { x with left := left' }) (by
      intro n hn
      have hh := hn.body
      rw [hb] at hh
      exact ⟨hn.tree, hn.parent, hn.root, hn.ref, hn.dirty, ⟨hh.1, hh.2.1, hh.2.2.1, rfl, hh.2.2.2.2⟩⟩)
  exact ⟨w', h1, h2⟩

end

end SM.BT

import Verif.BTree.Up

/-! How many nodes of a tree are dirty: the nodes Flush has to write. -/

namespace SM.BT

variable {K V : Type} {H h : Nat}

/-- The nodes that are not on disk as they are. -/
def Gt.due : {h : Nat} → Gt K V h → Nat
  | _, Nd.unl _ _ => 0
  | 0, Nd.ld _ st _ => if st.isNone then 1 else 0
  | h + 1, Nd.ld _ st r => (if st.isNone then 1 else 0) + ((@_root_.id (Row K (Gt K V h)) r).kids.map Gt.due).sum
  | 0, Nd.od _ _ _ => 1
  | h + 1, Nd.od _ _ r => 1 + ((@_root_.id (Row K (Gt K V h)) r).kids.map Gt.due).sum

section
variable (i : Id) (st : Option Ref) (o : Odd K V) (l : List (K × V)) (r : Row K (Gt K V h)) (d : Dt K V h)
@[simp] theorem due_unl : (Gt.unl i d).due = 0 := by cases h <;> rfl
theorem due_leaf : (Gt.leaf i st l).due = if st.isNone then 1 else 0 := rfl
theorem due_inner : (Gt.inner i st r).due = (if st.isNone then 1 else 0) + (r.kids.map Gt.due).sum := rfl
@[simp] theorem due_odLeaf : (Gt.odLeaf i o l).due = 1 := rfl
theorem due_odInner : (Gt.odInner i o r).due = 1 + (r.kids.map Gt.due).sum := rfl
end

/-- The dirty nodes around a subtree. -/
def Ctx.due : {h : Nat} → Ctx K V H h → Nat
  | _, .top => 0
  | _, .fr _ st pre post up => (if st.isNone then 1 else 0) + ((Row.kidsH pre).map Gt.due).sum + (post.map fun p => p.2.due).sum + up.due

theorem Ctx.plug_due : ∀ {h : Nat} (C : Ctx K V H h) (t : Gt K V h), (C.plug t).due = C.due + t.due
  | _, .top, t => by simp [Ctx.plug, Ctx.due]
  | _, .fr id st pre post up, t => by
      rw [Ctx.plug, Ctx.plug_due up, due_inner, Ctx.due]
      simp only [Row.kids_plug, List.map_append, List.map_cons, List.sum_append, List.sum_cons, List.map_map]
      rw [show (Gt.due ∘ Prod.snd : K × Gt K V _ → _) = fun p => p.2.due from rfl]
      omega

/-- One more on each level at most. -/
theorem Ctx.dirty_due : ∀ {h : Nat} (C : Ctx K V H h), C.dirty.due + h ≤ C.due + H
  | _, .top => by simp [Ctx.dirty, Ctx.due]
  | _, .fr id st pre post up => by
      have := Ctx.dirty_due up
      simp only [Ctx.dirty, Ctx.due, Option.isNone_none, if_true]
      split <;> omega

/-- The nodes of a tree. -/
def Pt.nodes : {h : Nat} → Pt K V h → Nat
  | 0, _ => 1
  | h + 1, r => 1 + ((@_root_.id (Row K (Pt K V h)) r).kids.map Pt.nodes).sum

@[simp] theorem nodes_leaf (l : List (K × V)) : (Pt.leaf l).nodes = 1 := rfl
theorem nodes_inner (r : Row K (Pt K V h)) : (Pt.inner r).nodes = 1 + (r.kids.map Pt.nodes).sum := rfl

theorem card_sum {α β : Type} (f : α → Multiset β) (l : List α) : Multiset.card (l.map f).sum = (l.map fun a => Multiset.card (f a)).sum := by
  induction l with
  | nil => rfl
  | cons a l ih => simp [ih]

theorem Dt.card_pages (P : Par K) : ∀ {h : Nat} (b : Bool) (d : Dt K V h), Multiset.card (d.pages P b) = d.erase.nodes
  | 0, b, d => by obtain ⟨ref, l, rfl⟩ := d.cases0; rfl
  | h + 1, b, d => by
      obtain ⟨ref, r, rfl⟩ := d.casesS
      rw [pages_inner, erase_dinner, nodes_inner, Row.kids_map, List.map_map, Multiset.card_cons, card_sum, Nat.add_comm]
      exact congrArg (fun l => 1 + List.sum l) (List.map_congr_left fun d _ => Dt.card_pages P false d)

/-- The nodes on disk are the others. -/
theorem due_pages (P : Par K) : ∀ {h : Nat} (q : Pos) (t : Gt K V h), t.odds = 0 → t.due + Multiset.card (bun P q t).2.2.1 = t.erase.nodes
  | 0, q, t, hz => by
      rcases t.cases0 with ⟨i, d, rfl⟩ | ⟨i, st, l, rfl⟩ | ⟨i, o, l, rfl⟩
      · rw [due_unl, bun_unl, erase_unl, ← Dt.card_pages P q.root]; simp [cellB, offB, pagesB]
      · rw [due_leaf, bun_leaf, erase_leaf, nodes_leaf]
        cases st <;> simp [leafB, cellB, lruB, ownPage]
      · simp at hz
  | h + 1, q, t, hz => by
      rcases t.casesS with ⟨i, d, rfl⟩ | ⟨i, st, r, rfl⟩ | ⟨i, o, r, rfl⟩
      · rw [due_unl, bun_unl, erase_unl, ← Dt.card_pages P q.root]; simp [cellB, offB, pagesB]
      · have hk : ∀ c ∈ r.kids, c.due + Multiset.card (bun P (Pos.child i) c).2.2.1 = c.erase.nodes := fun c hc =>
          due_pages P _ c (odds_kid hz hc)
        rw [due_inner, bun_inner, erase_inner, nodes_inner, Row.kids_map, List.map_map]
        have e : (r.kids.map Gt.due).sum + Multiset.card (r.kids.map (bun P (Pos.child i))).sum.2.2.1 = (r.kids.map (Pt.nodes ∘ Gt.erase)).sum := by
          generalize r.kids = l at hk
          induction l with
          | nil => rfl
          | cons c l ih =>
            have := hk c (by simp)
            have := ih fun c hc => hk c (by simp [hc])
            simp only [List.map_cons, List.sum_cons, Prod.snd_add, Prod.fst_add, Multiset.card_add, Function.comp_apply] at *
            omega
        cases st <;> simp [innerB, cellB, lruB, ownPage] <;> omega
      · rw [odds_odInner] at hz; simp at hz

theorem Sim.due {P : Par K} {t g : Gt K V h} (s : Sim P t g) (hz : t.odds = 0) : g.due = t.due := by
  have h1 := due_pages P ⟨none, true⟩ t hz
  have h2 := due_pages P ⟨none, true⟩ g (s.odds.trans hz)
  rw [s.erase, s.pages] at h2
  omega

end SM.BT

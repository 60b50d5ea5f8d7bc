import Verif.BTree.Still

/-! With PutNode and the packing callbacks working, Flush cannot fail with their errors. -/

namespace SM.BT

variable {K V : Type}

/-- From now on, packing does not fail, and PutNode comes up with a place of its own at every call, where nothing is stored. -/
structure World.Roomy (w : World K V) : Prop where
  packs : ∀ n, w.env.packFails n = false
  room : ∀ n, w.env.puts ≤ n → ∃ p, w.env.putLoc n = some p ∧ (∀ len, w.disk ⟨p.1, p.2, len⟩ = none) ∧ ∀ m, m ≠ n → w.env.putLoc m ≠ some p

theorem Idle.roomy {w w' : World K V} (h : Idle w w') (g : w.Roomy) : w'.Roomy := by
  obtain ⟨e1, e2⟩ := Prod.mk.inj h.putL
  refine ⟨fun n => by rw [e2]; exact g.packs n, fun n hn => ?_⟩
  rw [h.puts] at hn
  rw [e1, h.disk]
  exact g.room n hn

/-- The action cannot fail for want of room. -/
structure Roomy {α : Type} (m : M K V α) : Prop where
  run : ∀ w, w.Roomy → (m w).2.Roomy ∧ (m w).1 ≠ .err .putNode ∧ (m w).1 ≠ .err .codec

namespace Roomy
variable {α β : Type}

theorem bind {m : M K V α} {f : α → M K V β} (h : Roomy m) (g : ∀ a, Roomy (f a)) : Roomy (m >>= f) := by
  refine ⟨fun w hw => ?_⟩
  show (M.bind m f w).2.Roomy ∧ (M.bind m f w).1 ≠ _ ∧ (M.bind m f w).1 ≠ _
  have := h.run w hw
  unfold M.bind
  rcases hm : m w with ⟨_ | _ | _, w'⟩ <;> rw [hm] at this <;> simp only at this ⊢
  · exact (g _).run _ this.1
  · refine ⟨this.1, ?_, ?_⟩
    · rintro ⟨⟩; exact this.2.1 rfl
    · rintro ⟨⟩; exact this.2.2 rfl
  · exact ⟨this.1, nofun, nofun⟩

theorem still {m : M K V α} (h : Still m) (g : ∀ w e, (m w).1 = .err e → ∃ n, e = .logic n) : Roomy m := by
  refine ⟨fun w hw => ⟨(h.run w).roomy hw, fun e => ?_, fun e => ?_⟩⟩ <;> obtain ⟨n, hn⟩ := g w _ e <;> cases hn

theorem pure (a : α) : Roomy (Pure.pure a : M K V α) := still (.pure a) (by rintro w e ⟨⟩)
theorem fatal : Roomy (M.fatal : M K V α) := still .fatal (by rintro w e ⟨⟩)
theorem deref (a : Option α) : Roomy (M.deref a : M K V α) := by
  cases a
  · exact fatal
  · exact pure _
theorem must (n : Nat) (a : Option α) : Roomy (M.must n a : M K V α) := by
  cases a
  · exact still (.must n none) (by rintro w e ⟨⟩; exact ⟨_, rfl⟩)
  · exact pure _
theorem check (n : Nat) (b : Bool) : Roomy (M.check n b : M K V Unit) := by
  cases b
  · exact still (.check n false) (by rintro w e ⟨⟩; exact ⟨_, rfl⟩)
  · exact pure _
theorem getN (i : Id) : Roomy (BT.getN i : M K V _) := still (.getN i) (by rintro w e ⟨⟩)
theorem getT (i : TreeId) : Roomy (BT.getT i : M K V _) := still (.getT i) (by rintro w e ⟨⟩)
theorem modN (i : Id) (f : NodeS K V → NodeS K V) : Roomy (BT.modN i f) := still (.modN i f) (by rintro w e ⟨⟩)
theorem onLru (τ : TreeId) (f : LruS → Option LruS) : Roomy (BT.onLru τ f : M K V Unit) := by
  refine still (.onLru τ f) fun w e he => ?_
  unfold BT.onLru at he
  split at he
  · split at he <;> cases he
  · cases he
theorem onCtl (τ : TreeId) (f : Ctl → Ctl) : Roomy (BT.onCtl τ f : M K V Unit) := by
  refine still (.onCtl τ f) fun w e he => ?_
  unfold BT.onCtl at he
  split at he <;> cases he
theorem startDrainer (τ : TreeId) : Roomy (BT.startDrainer τ : M K V Unit) := ⟨fun w hw => (onCtl τ _).run w hw⟩
theorem pack : Roomy (BT.pack : M K V _) := by
  refine ⟨fun w hw => ⟨(Still.pack.run w).roomy hw, ?_⟩⟩
  unfold BT.pack
  simp [hw.packs]
theorem putNode (d : DiskNode K V) (n : Nat) : Roomy (BT.putNode d n) := by
  refine ⟨fun w hw => ?_⟩
  obtain ⟨p, h1, h2, h3⟩ := hw.room w.env.puts (Nat.le_refl _)
  unfold BT.putNode
  dsimp only
  rw [h1]
  dsimp only
  rw [h2 n]
  refine ⟨⟨hw.packs, fun m hm => ?_⟩, nofun, nofun⟩
  replace hm : w.env.puts + 1 ≤ m := hm
  obtain ⟨q, k1, k2, k3⟩ := hw.room m (by omega)
  refine ⟨q, k1, fun len => ?_, k3⟩
  dsimp only
  rw [if_neg, k2]
  intro e
  simp only [Ref.mk.injEq] at e
  refine h3 m (by omega) ?_
  rw [k1]
  obtain ⟨e1, e2, -⟩ := e
  exact congrArg some (Prod.ext e1 e2)

end Roomy

/-- One step of a proof of `Roomy`; each function adds itself below. -/
syntax "roomy1" : tactic
macro_rules | `(tactic| roomy1) => `(tactic| dsimp only)
macro_rules | `(tactic| roomy1) => `(tactic| with_reducible assumption)
macro_rules | `(tactic| roomy1) => `(tactic| intro _)
macro_rules | `(tactic| roomy1) => `(tactic| split)
macro_rules | `(tactic| roomy1) => `(tactic| with_reducible apply Roomy.bind)
macro_rules | `(tactic| roomy1) => `(tactic| with_reducible first | exact Roomy.pure _ | exact Roomy.fatal | exact Roomy.deref _ | exact Roomy.must _ _ | exact Roomy.check _ _ | exact Roomy.getN _ | exact Roomy.getT _ | exact Roomy.modN _ _ | exact Roomy.onLru _ _ | exact Roomy.startDrainer _ | exact Roomy.pack | exact Roomy.putNode _ _)
macro "roomy" : tactic => `(tactic| repeat' roomy1)

namespace Roomy

theorem rootOf (τ : TreeId) : Roomy (BT.rootOf τ : M K V Id) := by unfold BT.rootOf; roomy
theorem kvOf (i : Id) : Roomy (BT.kvOf i : M K V _) := by unfold BT.kvOf; roomy
macro_rules | `(tactic| roomy1) => `(tactic| with_reducible first | exact Roomy.rootOf _ | exact Roomy.kvOf _)
theorem kvLen (i : Id) : Roomy (BT.kvLen i : M K V _) := by unfold BT.kvLen; roomy
theorem kvGetByIndex (i : Id) (n : Int) : Roomy (BT.kvGetByIndex i n : M K V _) := by unfold BT.kvGetByIndex; roomy
theorem asNode (v : Val V) : Roomy (BT.asNode v : M K V _) := by unfold BT.asNode; roomy
macro_rules | `(tactic| roomy1) => `(tactic| with_reducible first | exact Roomy.kvLen _ | exact Roomy.kvGetByIndex _ _ | exact Roomy.asNode _)
theorem kvChildOk (l : Nat) (i : Id) (n : Int) : Roomy (BT.kvChildOk l i n : M K V _) := by unfold BT.kvChildOk; roomy
theorem markNodeClean (τ : TreeId) (i : Id) : Roomy (BT.markNodeClean τ i : M K V _) := by unfold BT.markNodeClean; roomy
theorem markNodeEvicted (τ : TreeId) (i : Id) : Roomy (BT.markNodeEvicted τ i : M K V _) := by unfold BT.markNodeEvicted; roomy
macro_rules | `(tactic| roomy1) => `(tactic| with_reducible first | exact Roomy.kvChildOk _ _ _ | exact Roomy.markNodeClean _ _ | exact Roomy.markNodeEvicted _ _)
theorem evict (τ : TreeId) (i : Id) : Roomy (BT.evict τ i : M K V _) := by unfold BT.evict; roomy
theorem postLeafLoop (i : Id) : ∀ (a k : Nat), Roomy (BT.postLeafLoop i a k : M K V _)
  | _, 0 => by unfold BT.postLeafLoop; roomy
  | a, k + 1 => by
      have ih := postLeafLoop i (a + 1) k
      unfold BT.postLeafLoop
      roomy
theorem postRef (l : Nat) (i : Id) : Roomy (BT.postRef l i : M K V _) := by unfold BT.postRef; roomy
macro_rules | `(tactic| roomy1) => `(tactic| with_reducible first | exact Roomy.postRef _ _ | exact Roomy.postLeafLoop _ _ _ | exact Roomy.evict _ _)
theorem postInnerLoop (i : Id) : ∀ (a k : Nat), Roomy (BT.postInnerLoop i a k : M K V _)
  | _, 0 => by unfold BT.postInnerLoop; roomy
  | a, k + 1 => by
      have ih := postInnerLoop i (a + 1) k
      unfold BT.postInnerLoop
      roomy
macro_rules | `(tactic| roomy1) => `(tactic| with_reducible exact Roomy.postInnerLoop _ _ _)
theorem postBody (i : Id) : Roomy (BT.postBody i : M K V _) := by unfold BT.postBody; roomy
macro_rules | `(tactic| roomy1) => `(tactic| with_reducible exact Roomy.postBody _)
theorem postNode (size : DiskNode K V → Nat) (τ : TreeId) (i : Id) : Roomy (BT.postNode size τ i) := by unfold BT.postNode; roomy
macro_rules | `(tactic| roomy1) => `(tactic| with_reducible exact Roomy.postNode _ _ _)
theorem forChildren (l : Nat) (i : Id) {f : Id → M K V Unit} (hf : ∀ c, Roomy (f c)) : ∀ (a k : Nat), Roomy (BT.forChildren l i f a k)
  | _, 0 => by unfold BT.forChildren; roomy
  | a, k + 1 => by
      have ih := forChildren l i hf (a + 1) k
      unfold BT.forChildren
      repeat' first | with_reducible exact hf _ | with_reducible exact ih | roomy1
theorem eachChild (l : Nat) (i : Id) {f : Id → M K V Unit} (hf : ∀ c, Roomy (f c)) : Roomy (BT.eachChild l i f) := by
  have := forChildren l i hf
  unfold BT.eachChild
  repeat' first | with_reducible exact hf _ | with_reducible exact this _ _ | roomy1
theorem flushNode (size : DiskNode K V → Nat) (τ : TreeId) (p : Bool) : ∀ (n : Nat) (i : Id), Roomy (BT.flushNode size τ p n i)
  | 0, _ => by unfold BT.flushNode; roomy
  | n + 1, i => by
      have ih := flushNode size τ p n
      unfold BT.flushNode
      repeat' first | with_reducible exact Roomy.eachChild _ _ ih | roomy1
theorem fetchLocation (τ : TreeId) : Roomy (BT.fetchLocation τ : M K V _) := by unfold BT.fetchLocation; roomy
theorem flush (size : DiskNode K V → Nat) (τ : TreeId) (n : Nat) (p : Bool) : Roomy (BT.flush size τ n p) := by
  unfold BT.flush
  repeat' first | with_reducible exact Roomy.flushNode _ _ _ _ _ | with_reducible exact Roomy.fetchLocation _ | roomy1

end Roomy

end SM.BT

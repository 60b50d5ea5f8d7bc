import Verif.BTree.Scene
import Verif.BTree.Putting

/-! Nodes are stored where PutNode said, and nowhere else. -/

namespace SM.BT

variable {K V : Type}

/-- What is stored now and was not before is where PutNode said. -/
structure Filing (w w' : World K V) : Prop where
  putL : w'.env.putLoc = w.env.putLoc
  disk : ∀ r, w'.disk r ≠ none → w.disk r ≠ none ∨ ∃ n, w.env.putLoc n = some (r.num, r.off)

theorem Filing.trans {a b c : World K V} (h : Filing a b) (g : Filing b c) : Filing a c := by
  refine ⟨g.putL.trans h.putL, fun r hr => ?_⟩
  rcases g.disk r hr with k | k
  · exact h.disk r k
  · rw [h.putL] at k; exact .inr k
theorem Idle.filing {w w' : World K V} (h : Idle w w') : Filing w w' :=
  ⟨(Prod.mk.inj h.putL).1, fun r hr => .inl (by rw [← h.disk]; exact hr)⟩

/-- In any state, the action stores nothing but where PutNode says. -/
structure Laying {α : Type} (m : M K V α) : Prop where
  run : ∀ w, Filing w (m w).2

theorem Still.laying {α : Type} {m : M K V α} (h : Still m) : Laying m := ⟨fun w => (h.run w).filing⟩

namespace Laying
variable {α β : Type}

theorem bind {m : M K V α} {f : α → M K V β} (h : Laying m) (g : ∀ a, Laying (f a)) : Laying (m >>= f) := by
  refine ⟨fun w => ?_⟩
  show Filing w (M.bind m f w).2
  have := h.run w
  unfold M.bind
  rcases hm : m w with ⟨_ | _ | _, w'⟩ <;> rw [hm] at this <;> simp only at this ⊢
  · exact this.trans ((g _).run _)
  · exact this
  · exact this

theorem putNode (d : DiskNode K V) (n : Nat) : Laying (BT.putNode d n) := by
  refine ⟨fun w => ?_⟩
  unfold BT.putNode
  dsimp only
  split
  · exact ⟨rfl, fun _ h => .inl h⟩
  · rename_i a o hp
    split
    · exact ⟨rfl, fun _ h => .inl h⟩
    · refine ⟨rfl, fun r h => ?_⟩
      dsimp only at h
      split at h
      · rename_i e
        subst e
        exact .inr ⟨_, hp⟩
      · exact .inl h

theorem discardDisk (r : Ref) : Laying (BT.discardDisk r : M K V _) := by
  refine ⟨fun w => ?_⟩
  unfold BT.discardDisk
  dsimp only
  split
  · exact ⟨rfl, fun _ h => .inl h⟩
  · split
    · exact ⟨rfl, fun _ h => .inl h⟩
    · refine ⟨rfl, fun r h => .inl ?_⟩
      dsimp only at h
      split at h
      · exact absurd rfl h
      · exact h

theorem ranged (l : List Ref) : Laying (BT.ranged l : M K V _) := ⟨fun _ => ⟨rfl, fun _ h => .inl h⟩⟩

end Laying

syntax "laying1" : tactic
macro_rules | `(tactic| laying1) => `(tactic| (with_reducible refine Still.laying ?_; still; done))
macro_rules | `(tactic| laying1) => `(tactic| intro _)
macro_rules | `(tactic| laying1) => `(tactic| split)
macro_rules | `(tactic| laying1) => `(tactic| with_reducible first | exact Laying.putNode _ _ | exact Laying.discardDisk _ | exact Laying.ranged _ | apply Laying.bind)
macro "laying" : tactic => `(tactic| repeat' laying1)

namespace Laying

theorem postNode (size : DiskNode K V → Nat) (τ : TreeId) (i : Id) : Laying (BT.postNode size τ i) := by
  unfold BT.postNode
  laying
macro_rules | `(tactic| laying1) => `(tactic| with_reducible exact Laying.postNode _ _ _)
theorem forChildren (l : Nat) (i : Id) {f : Id → M K V Unit} (hf : ∀ c, Laying (f c)) : ∀ (a k : Nat), Laying (BT.forChildren l i f a k)
  | _, 0 => by unfold BT.forChildren; laying
  | a, k + 1 => by
      have ih := forChildren l i hf (a + 1) k
      unfold BT.forChildren
      repeat' first | with_reducible exact hf _ | with_reducible exact ih | laying1
theorem eachChild (l : Nat) (i : Id) {f : Id → M K V Unit} (hf : ∀ c, Laying (f c)) : Laying (BT.eachChild l i f) := by
  have := forChildren l i hf
  unfold BT.eachChild
  repeat' first | with_reducible exact hf _ | with_reducible exact this _ _ | laying1
theorem flushNode (size : DiskNode K V → Nat) (τ : TreeId) (p : Bool) : ∀ (n : Nat) (i : Id), Laying (BT.flushNode size τ p n i)
  | 0, _ => by unfold BT.flushNode; laying
  | n + 1, i => by
      have ih := flushNode size τ p n
      unfold BT.flushNode
      repeat' first | with_reducible exact Laying.eachChild _ _ ih | laying1
theorem flush (size : DiskNode K V → Nat) (τ : TreeId) (n : Nat) (p : Bool) : Laying (BT.flush size τ n p) := by
  unfold BT.flush
  repeat' first | with_reducible exact Laying.flushNode _ _ _ _ _ | laying1
theorem pruneLoop : ∀ (l : List Ref), Laying (BT.pruneLoop l : M K V _)
  | [] => by unfold BT.pruneLoop; laying
  | r :: l => by
      have ih := pruneLoop l
      unfold BT.pruneLoop
      repeat' first | with_reducible exact ih | laying1
theorem pruneWhileLocked (τ : TreeId) : Laying (BT.pruneWhileLocked τ : M K V _) := by
  unfold BT.pruneWhileLocked
  repeat' first | with_reducible exact Laying.pruneLoop _ | laying1
theorem discard (cmp : Compare K) (τ : TreeId) (n : Nat) : Laying (BT.discard cmp τ n : M K V _) := by
  unfold BT.discard
  repeat' first | with_reducible exact Laying.pruneWhileLocked _ | laying1

theorem reply {f : α → Api.Reply K V} {m : M K V α} (h : Laying m) (w : World K V) : Filing w (BT.reply f m w).2 := by
  rw [reply_world]
  exact h.run w

/-- Every call stores what it stores where PutNode says. -/
theorem exec (size : DiskNode K V → Nat) (cfg : TreeId → Par K) (fuel : Nat) (c : Api.Call K V) (w : World K V) : Filing w (BT.exec size cfg fuel c w).2 := by
  cases c with
  | op t o => exact (Still.step _ _ _ _).laying.reply w
  | flush t p => exact (Laying.flush size t fuel p).reply w
  | purge t full => exact (Still.purge t fuel full).laying.reply w
  | touch t => exact (Still.touch _ t fuel).laying.reply w
  | touchItem t i => exact (Still.touchItem _ t fuel i).laying.reply w
  | prune t => exact (Laying.pruneWhileLocked t).reply w
  | discard t => exact (Laying.discard _ t fuel).reply w
  | layout t => exact (Still.fetchLayoutReport _ t fuel).laying.reply w
  | dimensions t => exact (Still.fetchDimensionsReport _ t fuel).laying.reply w
  | location t => exact (Still.fetchLocation t).laying.reply w
  | dump t cb => exact (Still.dump _ cb t fuel).laying.reply w
  | new t => exact (Still.newBPlusTree t _ _).laying.reply w
  | old t r => exact (Still.oldBPlusTree _ t r _).laying.reply w
  | evict x => exact (Still.drainerEvict fuel x).laying.reply w
  | limits lo hi => exact (Still.updateLimits lo hi).laying.reply w
  | restart => exact ⟨rfl, fun _ h => .inl h⟩

end Laying

end SM.BT

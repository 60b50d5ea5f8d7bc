import Verif.BTree.Scene

/-! How often the client's GetNode is called, whatever the state. -/

namespace SM.BT

variable {K V : Type}

/-- In any state, the action calls no GetNode. -/
structure Dry {α : Type} (m : M K V α) : Prop where
  run : ∀ w, (m w).2.env.gets = w.env.gets

namespace Dry
variable {α β : Type}

theorem bind {m : M K V α} {f : α → M K V β} (h : Dry m) (g : ∀ a, Dry (f a)) : Dry (m >>= f) := by
  refine ⟨fun w => ?_⟩
  show (M.bind m f w).2.env.gets = _
  have := h.run w
  unfold M.bind
  rcases hm : m w with ⟨_ | _ | _, w'⟩ <;> rw [hm] at this <;> simp only at this ⊢
  · rename_i a
    have h2 := (g a).run w'
    exact h2.trans this
  · exact this
  · exact this

theorem of {m : M K V α} (h : ∀ w, (m w).2.env.gets = w.env.gets) : Dry m := ⟨h⟩

theorem pure (a : α) : Dry (Pure.pure a : M K V α) := of fun _ => rfl
theorem throw (e : Err) : Dry (M.throw e : M K V α) := of fun _ => rfl
theorem fatal : Dry (M.fatal : M K V α) := of fun _ => rfl
theorem attempt {m : M K V α} (h : Dry m) : Dry (M.attempt m) := by
  refine ⟨fun w => ?_⟩
  have := h.run w
  unfold M.attempt
  rcases hm : m w with ⟨_ | _ | _, w'⟩ <;> rw [hm] at this <;> exact this
theorem deref (a : Option α) : Dry (M.deref a : M K V α) := by cases a <;> exact of fun _ => rfl
theorem must (n : Nat) (a : Option α) : Dry (M.must n a : M K V α) := by cases a <;> exact of fun _ => rfl
theorem check (n : Nat) (b : Bool) : Dry (M.check n b : M K V Unit) := by cases b <;> exact of fun _ => rfl
theorem getN (i : Id) : Dry (BT.getN i : M K V _) := of fun _ => rfl
theorem getP (i : Id) : Dry (BT.getP i : M K V _) := of fun _ => rfl
theorem getT (i : TreeId) : Dry (BT.getT i : M K V _) := of fun _ => rfl
theorem modN (i : Id) (f : NodeS K V → NodeS K V) : Dry (BT.modN i f) := of fun _ => rfl
theorem modP (i : Id) (f : PSum → PSum) : Dry (BT.modP i f : M K V Unit) := of fun _ => rfl
theorem modT (i : TreeId) (f : TreeS → TreeS) : Dry (BT.modT i f : M K V Unit) := of fun _ => rfl
theorem alloc (n : NodeS K V) : Dry (BT.alloc n) := of fun _ => rfl
theorem onLru (τ : TreeId) (f : LruS → Option LruS) : Dry (BT.onLru τ f : M K V Unit) := by
  refine of fun w => ?_
  unfold BT.onLru
  split
  · split <;> rfl
  · rfl
theorem onCtl (τ : TreeId) (f : Ctl → Ctl) : Dry (BT.onCtl τ f : M K V Unit) := by
  refine of fun w => ?_
  unfold BT.onCtl
  split <;> rfl
theorem startDrainer (τ : TreeId) : Dry (BT.startDrainer τ : M K V Unit) := ⟨fun w => (onCtl (K := K) (V := V) τ _).run w⟩
theorem unpack : Dry (BT.unpack : M K V _) := by
  refine of fun w => ?_
  unfold BT.unpack
  dsimp only
  split <;> rfl
theorem pack : Dry (BT.pack : M K V _) := by
  refine of fun w => ?_
  unfold BT.pack
  dsimp only
  split <;> rfl
theorem putNode (d : DiskNode K V) (n : Nat) : Dry (BT.putNode d n) := by
  refine of fun w => ?_
  unfold BT.putNode
  dsimp only
  split
  · rfl
  · split <;> rfl
theorem discardDisk (r : Ref) : Dry (BT.discardDisk r : M K V _) := by
  refine of fun w => ?_
  unfold BT.discardDisk
  dsimp only
  split
  · rfl
  · split <;> rfl

end Dry

/-- One step of a proof of `Dry`; each function adds itself below. -/
syntax "dry1" : tactic
macro_rules | `(tactic| dry1) => `(tactic| dsimp only)
macro_rules | `(tactic| dry1) => `(tactic| with_reducible assumption)
macro_rules | `(tactic| dry1) => `(tactic| intro _)
macro_rules | `(tactic| dry1) => `(tactic| split)
macro_rules | `(tactic| dry1) => `(tactic| with_reducible apply Dry.bind)
macro_rules | `(tactic| dry1) => `(tactic| with_reducible apply Dry.attempt)
macro_rules | `(tactic| dry1) => `(tactic| with_reducible first | exact Dry.pure _ | exact Dry.throw _ | exact Dry.fatal | exact Dry.deref _ | exact Dry.must _ _ | exact Dry.check _ _ | exact Dry.getN _ | exact Dry.getP _ | exact Dry.getT _ | exact Dry.modN _ _ | exact Dry.modP _ _ | exact Dry.modT _ _ | exact Dry.alloc _ | exact Dry.onLru _ _ | exact Dry.onCtl _ _ | exact Dry.startDrainer _ | exact Dry.unpack | exact Dry.pack | exact Dry.putNode _ _ | exact Dry.discardDisk _)
macro "dry" : tactic => `(tactic| repeat' dry1)

namespace Dry

theorem rootOf (τ : TreeId) : Dry (BT.rootOf τ : M K V Id) := by unfold BT.rootOf; dry
macro_rules | `(tactic| dry1) => `(tactic| with_reducible exact Dry.rootOf _)
theorem kvOf (i : Id) : Dry (BT.kvOf i : M K V _) := by unfold BT.kvOf; dry
macro_rules | `(tactic| dry1) => `(tactic| with_reducible exact Dry.kvOf _)
theorem setKv (i : Id) (t : LLRB.Tree K (Val V)) : Dry (BT.setKv i t) := by unfold BT.setKv; dry
macro_rules | `(tactic| dry1) => `(tactic| with_reducible exact Dry.setKv _ _)
theorem kvLen (i : Id) : Dry (BT.kvLen i : M K V _) := by unfold BT.kvLen; dry
macro_rules | `(tactic| dry1) => `(tactic| with_reducible exact Dry.kvLen _)
theorem kvGetByIndex (i : Id) (n : Int) : Dry (BT.kvGetByIndex i n : M K V _) := by unfold BT.kvGetByIndex; dry
macro_rules | `(tactic| dry1) => `(tactic| with_reducible exact Dry.kvGetByIndex _ _)
theorem kvFinish (i : Id) (r : Option ((Bool × Option Err) × LLRB.Tree K (Val V))) : Dry (BT.kvFinish i r) := by unfold BT.kvFinish; dry
macro_rules | `(tactic| dry1) => `(tactic| with_reducible exact Dry.kvFinish _ _)
theorem kvPut (cmp : Compare K) (i : Id) (k : K) (v : Val V) : Dry (BT.kvPut cmp i k v) := by unfold BT.kvPut; dry
macro_rules | `(tactic| dry1) => `(tactic| with_reducible exact Dry.kvPut _ _ _ _)
theorem kvPutIgnore (cmp : Compare K) (i : Id) (k : K) (v : Val V) : Dry (BT.kvPutIgnore cmp i k v) := by unfold BT.kvPutIgnore; dry
macro_rules | `(tactic| dry1) => `(tactic| with_reducible exact Dry.kvPutIgnore _ _ _ _)
theorem kvDeleteByIndex (cmp : Compare K) (i : Id) (n : Int) : Dry (BT.kvDeleteByIndex cmp i n : M K V _) := by unfold BT.kvDeleteByIndex; dry
macro_rules | `(tactic| dry1) => `(tactic| with_reducible exact Dry.kvDeleteByIndex _ _ _)
theorem liftBisect (r : Option (Int × Bool × Option Err)) : Dry (BT.liftBisect r : M K V _) := by unfold BT.liftBisect; dry
macro_rules | `(tactic| dry1) => `(tactic| with_reducible exact Dry.liftBisect _)
theorem asNode (v : Val V) : Dry (BT.asNode v : M K V _) := by unfold BT.asNode; dry
macro_rules | `(tactic| dry1) => `(tactic| with_reducible exact Dry.asNode _)
theorem asItem (v : Val V) : Dry (BT.asItem v : M K V _) := by unfold BT.asItem; dry
macro_rules | `(tactic| dry1) => `(tactic| with_reducible exact Dry.asItem _)
theorem kvChild (i : Id) (n : Int) : Dry (BT.kvChild i n : M K V _) := by unfold BT.kvChild; dry
macro_rules | `(tactic| dry1) => `(tactic| with_reducible exact Dry.kvChild _ _)
theorem kvChildOk (l : Nat) (i : Id) (n : Int) : Dry (BT.kvChildOk l i n : M K V _) := by unfold BT.kvChildOk; dry
macro_rules | `(tactic| dry1) => `(tactic| with_reducible exact Dry.kvChildOk _ _ _)
theorem initNodeAsEvicted (τ : TreeId) (i : Id) : Dry (BT.initNodeAsEvicted τ i : M K V _) := by unfold BT.initNodeAsEvicted; dry
theorem incCacheHits (τ : TreeId) : Dry (BT.incCacheHits τ : M K V _) := by unfold BT.incCacheHits; dry
theorem incCacheMisses (τ : TreeId) : Dry (BT.incCacheMisses τ : M K V _) := by unfold BT.incCacheMisses; dry
theorem markNodeUsed (τ : TreeId) (i : Id) : Dry (BT.markNodeUsed τ i : M K V _) := by unfold BT.markNodeUsed; dry
theorem markNodeClean (τ : TreeId) (i : Id) : Dry (BT.markNodeClean τ i : M K V _) := by unfold BT.markNodeClean; dry
theorem placeStale (τ : TreeId) (i : Id) : Dry (BT.placeStale τ i : M K V _) := by unfold BT.placeStale; dry
macro_rules | `(tactic| dry1) => `(tactic| with_reducible exact Dry.placeStale _ _)
theorem markNodeDirty (τ : TreeId) (i : Id) : Dry (BT.markNodeDirty τ i : M K V _) := by unfold BT.markNodeDirty; dry
theorem markNodeEvicted (τ : TreeId) (i : Id) : Dry (BT.markNodeEvicted τ i : M K V _) := by unfold BT.markNodeEvicted; dry
theorem markNodeToBeDiscarded (τ : TreeId) (i : Id) : Dry (BT.markNodeToBeDiscarded τ i : M K V _) := by unfold BT.markNodeToBeDiscarded; dry
macro_rules | `(tactic| dry1) => `(tactic| with_reducible first | exact Dry.initNodeAsEvicted _ _ | exact Dry.incCacheHits _ | exact Dry.incCacheMisses _ | exact Dry.markNodeUsed _ _ | exact Dry.markNodeClean _ _ | exact Dry.markNodeDirty _ _ | exact Dry.markNodeEvicted _ _ | exact Dry.markNodeToBeDiscarded _ _)

theorem arrangeRec : ∀ (n : Nat) (l : List Id), Dry (BT.arrangeRec n l : M K V _)
  | 0, _ => by unfold BT.arrangeRec; dry
  | n + 1, l => by
      have ih := arrangeRec n
      unfold BT.arrangeRec
      repeat' first | with_reducible exact ih _ | dry1
macro_rules | `(tactic| dry1) => `(tactic| with_reducible exact Dry.arrangeRec _ _)
theorem resetPs (c : Id) (n : Int) : Dry (BT.resetPs c n : M K V _) := by unfold BT.resetPs; dry
macro_rules | `(tactic| dry1) => `(tactic| with_reducible exact Dry.resetPs _ _)
theorem arrangeLoop (node : Id) : ∀ (i k : Nat), Dry (BT.arrangeLoop node i k : M K V _)
  | _, 0 => by unfold BT.arrangeLoop; dry
  | i, k + 1 => by
      have ih := arrangeLoop node (i + 1) k
      unfold BT.arrangeLoop
      dry
macro_rules | `(tactic| dry1) => `(tactic| with_reducible exact Dry.arrangeLoop _ _ _)
theorem arrangePrefixSumTree (i : Id) : Dry (BT.arrangePrefixSumTree i : M K V _) := by unfold BT.arrangePrefixSumTree; dry
macro_rules | `(tactic| dry1) => `(tactic| with_reducible exact Dry.arrangePrefixSumTree _)
theorem arrangeIgnore (i : Id) : Dry (BT.arrangeIgnore i : M K V _) := by unfold BT.arrangeIgnore; dry
macro_rules | `(tactic| dry1) => `(tactic| with_reducible exact Dry.arrangeIgnore _)
theorem rearrange (τ : TreeId) : ∀ (n : Nat) (i : Id), Dry (BT.rearrangePrefixSumTreeToRoot τ n i : M K V _)
  | 0, _ => by unfold BT.rearrangePrefixSumTreeToRoot; dry
  | n + 1, i => by
      have ih := rearrange τ n
      unfold BT.rearrangePrefixSumTreeToRoot
      repeat' first | with_reducible exact ih _ | dry1
macro_rules | `(tactic| dry1) => `(tactic| with_reducible exact Dry.rearrange _ _ _)
theorem updatePsUp (δ : Int) : ∀ (n : Nat) (i : Id), Dry (BT.updatePsUp δ n i : M K V _)
  | 0, _ => by unfold BT.updatePsUp; dry
  | n + 1, i => by
      have ih := updatePsUp δ n
      unfold BT.updatePsUp
      repeat' first | with_reducible exact ih _ | dry1
macro_rules | `(tactic| dry1) => `(tactic| with_reducible exact Dry.updatePsUp _ _ _)
theorem updateRec (τ : TreeId) (δ : Int) : ∀ (n : Nat) (i : Id), Dry (BT.updateRec τ δ n i : M K V _)
  | 0, _ => by unfold BT.updateRec; dry
  | n + 1, i => by
      have ih := updateRec τ δ n
      unfold BT.updateRec
      repeat' first | with_reducible exact ih _ | dry1
macro_rules | `(tactic| dry1) => `(tactic| with_reducible exact Dry.updateRec _ _ _ _)
theorem update (τ : TreeId) (n : Nat) (i : Id) : Dry (BT.updatePrefixSumTreeLeafToRoot τ n i : M K V _) := by
  unfold BT.updatePrefixSumTreeLeafToRoot; dry
macro_rules | `(tactic| dry1) => `(tactic| with_reducible exact Dry.update _ _ _)
theorem touchUp (τ : TreeId) : ∀ (n : Nat) (i : Id), Dry (BT.touchLoadedNodeToRoot τ n i : M K V _)
  | 0, _ => by unfold BT.touchLoadedNodeToRoot; dry
  | n + 1, i => by
      have ih := touchUp τ n
      unfold BT.touchLoadedNodeToRoot
      repeat' first | with_reducible exact ih _ | dry1
macro_rules | `(tactic| dry1) => `(tactic| with_reducible exact Dry.touchUp _ _ _)

theorem loadLeafLoop (cmp : Compare K) (i : Id) : ∀ l : List (K × V), Dry (BT.loadLeafLoop cmp i l)
  | [] => by unfold BT.loadLeafLoop; dry
  | (k, v) :: l => by
      have ih := loadLeafLoop cmp i l
      unfold BT.loadLeafLoop
      dry
macro_rules | `(tactic| dry1) => `(tactic| with_reducible exact Dry.loadLeafLoop _ _ _)
theorem loadInnerLoop (cmp : Compare K) (τ : TreeId) (i : Id) : ∀ l, Dry (BT.loadInnerLoop cmp τ i l : M K V _)
  | [] => by unfold BT.loadInnerLoop; dry
  | (k, v) :: l => by
      have ih := loadInnerLoop cmp τ i l
      unfold BT.loadInnerLoop
      dry
macro_rules | `(tactic| dry1) => `(tactic| with_reducible exact Dry.loadInnerLoop _ _ _ _)
theorem loadBody (cmp : Compare K) (τ : TreeId) (i : Id) (b : DiskBody K V) : Dry (BT.loadBody cmp τ i b) := by cases b <;> (unfold BT.loadBody; dry)
macro_rules | `(tactic| dry1) => `(tactic| with_reducible exact Dry.loadBody _ _ _ _)
theorem loadMax (τ : TreeId) (d : DiskNode K V) : Dry (BT.loadMax τ d) := by unfold BT.loadMax; dry
macro_rules | `(tactic| dry1) => `(tactic| with_reducible exact Dry.loadMax _ _)
theorem evict (τ : TreeId) (i : Id) : Dry (BT.evict τ i : M K V _) := by unfold BT.evict; dry
macro_rules | `(tactic| dry1) => `(tactic| with_reducible exact Dry.evict _ _)
theorem forChildren (l : Nat) (i : Id) {f : Id → M K V Unit} (hf : ∀ c, Dry (f c)) : ∀ (a k : Nat), Dry (BT.forChildren l i f a k)
  | _, 0 => by unfold BT.forChildren; dry
  | a, k + 1 => by
      have ih := forChildren l i hf (a + 1) k
      unfold BT.forChildren
      repeat' first | with_reducible exact hf _ | dry1
theorem eachChild (l : Nat) (i : Id) {f : Id → M K V Unit} (hf : ∀ c, Dry (f c)) : Dry (BT.eachChild l i f) := by
  have := forChildren l i hf
  unfold BT.eachChild
  repeat' first | with_reducible exact hf _ | with_reducible exact this _ _ | dry1
macro_rules | `(tactic| dry1) => `(tactic| with_reducible apply Dry.eachChild)
theorem purgeNode (τ : TreeId) (full : Bool) : ∀ (n : Nat) (i : Id), Dry (BT.purgeNode τ full n i : M K V _)
  | 0, _ => by unfold BT.purgeNode; dry
  | n + 1, i => by
      have ih := purgeNode τ full n
      unfold BT.purgeNode
      repeat' first | with_reducible exact ih _ | dry1
macro_rules | `(tactic| dry1) => `(tactic| with_reducible exact Dry.purgeNode _ _ _ _)
theorem childFor (cmp : Compare K) (i : Id) (k : K) : Dry (BT.childFor cmp i k : M K V _) := by unfold BT.childFor; dry
macro_rules | `(tactic| dry1) => `(tactic| with_reducible exact Dry.childFor _ _ _)
theorem psFind : ∀ (n : Nat) (i : Id) (m : Nat), Dry (BT.psFind n i m : M K V _)
  | 0, _, _ => by unfold BT.psFind; dry
  | n + 1, i, m => by
      have ih := psFind n
      unfold BT.psFind
      repeat' first | with_reducible exact ih _ _ | dry1
macro_rules | `(tactic| dry1) => `(tactic| with_reducible exact Dry.psFind _ _ _)
theorem leftSum (i : Id) : Dry (BT.leftSum i : M K V _) := by unfold BT.leftSum; dry
macro_rules | `(tactic| dry1) => `(tactic| with_reducible exact Dry.leftSum _)
theorem psClimb : ∀ (n : Nat) (i : Id) (s : List Bool), Dry (BT.psClimb n i s : M K V _)
  | 0, _, _ => by unfold BT.psClimb; dry
  | n + 1, i, m => by
      have ih := psClimb n
      unfold BT.psClimb
      repeat' first | with_reducible exact ih _ _ | dry1
macro_rules | `(tactic| dry1) => `(tactic| with_reducible exact Dry.psClimb _ _ _)
theorem psDescend : ∀ (s : List Bool) (i : Id) (n : Nat), Dry (BT.psDescend s i n : M K V _)
  | [], _, _ => by unfold BT.psDescend; dry
  | true :: s, i, m => by
      have ih := psDescend s
      unfold BT.psDescend
      repeat' first | with_reducible exact ih _ _ | dry1
  | false :: s, i, m => by
      have ih := psDescend s
      unfold BT.psDescend
      repeat' first | with_reducible exact ih _ _ | dry1
macro_rules | `(tactic| dry1) => `(tactic| with_reducible exact Dry.psDescend _ _ _)
theorem psDelta (n : Nat) (i c : Id) (m : Nat) : Dry (BT.psDelta n i c m : M K V _) := by unfold BT.psDelta; dry
macro_rules | `(tactic| dry1) => `(tactic| with_reducible exact Dry.psDelta _ _ _ _)
theorem splitLoop (cmp : Compare K) (mn : Nat) (lf : Bool) (a b : Id) : ∀ n, Dry (BT.splitLoop cmp mn lf a b n : M K V _)
  | 0 => by unfold BT.splitLoop; dry
  | n + 1 => by
      have ih := splitLoop cmp mn lf a b n
      unfold BT.splitLoop
      dry
macro_rules | `(tactic| dry1) => `(tactic| with_reducible exact Dry.splitLoop _ _ _ _ _ _)
theorem growRoot (cmp : Compare K) (τ : TreeId) (a b : Id) (k : K) : Dry (BT.growRoot cmp τ a b k : M K V _) := by unfold BT.growRoot; dry
macro_rules | `(tactic| dry1) => `(tactic| with_reducible exact Dry.growRoot _ _ _ _ _)
theorem splitNode (cmp : Compare K) (τ : TreeId) (a : Id) (n : Nat) : Dry (BT.splitNode cmp τ a n : M K V _) := by unfold BT.splitNode; dry
macro_rules | `(tactic| dry1) => `(tactic| with_reducible exact Dry.splitNode _ _ _ _)
theorem insertHere (cmp : Compare K) (τ : TreeId) (big : Nat) : ∀ (n : Nat) (i : Id) (k : K) (v : Val V), Dry (BT.insertHere cmp τ big n i k v)
  | 0, _, _, _ => by unfold BT.insertHere; dry
  | n + 1, i, k, v => by
      have ih := insertHere cmp τ big n
      unfold BT.insertHere
      repeat' first | with_reducible exact ih _ _ _ | dry1
macro_rules | `(tactic| dry1) => `(tactic| with_reducible exact Dry.insertHere _ _ _ _ _ _ _)

theorem borrowLeftLeaf (cmp : Compare K) (a b c : Id) (m n : Int) : Dry (BT.borrowLeftLeaf cmp a b c m n : M K V _) := by unfold BT.borrowLeftLeaf; dry
macro_rules | `(tactic| dry1) => `(tactic| with_reducible exact Dry.borrowLeftLeaf _ _ _ _ _ _)
theorem borrowLeftInner (cmp : Compare K) (a b c : Id) (m n : Int) : Dry (BT.borrowLeftInner cmp a b c m n : M K V _) := by unfold BT.borrowLeftInner; dry
macro_rules | `(tactic| dry1) => `(tactic| with_reducible exact Dry.borrowLeftInner _ _ _ _ _ _)
theorem borrowLeft (cmp : Compare K) (τ : TreeId) (a b c : Id) (m n : Int) : Dry (BT.borrowLeft cmp τ a b c m n : M K V _) := by unfold BT.borrowLeft; dry
macro_rules | `(tactic| dry1) => `(tactic| with_reducible exact Dry.borrowLeft _ _ _ _ _ _ _)
theorem borrowRightLeaf (cmp : Compare K) (a b c : Id) (m : Int) : Dry (BT.borrowRightLeaf cmp a b c m : M K V _) := by unfold BT.borrowRightLeaf; dry
macro_rules | `(tactic| dry1) => `(tactic| with_reducible exact Dry.borrowRightLeaf _ _ _ _ _)
theorem borrowRightInner (cmp : Compare K) (a b c : Id) (m : Int) : Dry (BT.borrowRightInner cmp a b c m : M K V _) := by unfold BT.borrowRightInner; dry
macro_rules | `(tactic| dry1) => `(tactic| with_reducible exact Dry.borrowRightInner _ _ _ _ _)
theorem borrowRight (cmp : Compare K) (τ : TreeId) (a b c : Id) (m : Int) : Dry (BT.borrowRight cmp τ a b c m : M K V _) := by unfold BT.borrowRight; dry
macro_rules | `(tactic| dry1) => `(tactic| with_reducible exact Dry.borrowRight _ _ _ _ _ _)
theorem reparent (v : Val V) (i : Id) : Dry (BT.reparent v i : M K V _) := by unfold BT.reparent; dry
macro_rules | `(tactic| dry1) => `(tactic| with_reducible exact Dry.reparent _ _)
theorem mergeLoop (cmp : Compare K) (a b : Id) : ∀ (i k : Nat), Dry (BT.mergeLoop cmp a b i k : M K V _)
  | _, 0 => by unfold BT.mergeLoop; dry
  | i, k + 1 => by
      have ih := mergeLoop cmp a b (i + 1) k
      unfold BT.mergeLoop
      dry
macro_rules | `(tactic| dry1) => `(tactic| with_reducible exact Dry.mergeLoop _ _ _ _ _)
theorem mergeInto (cmp : Compare K) (a b c : Id) (n : Int) (lf ch : Bool) : Dry (BT.mergeInto cmp a b c n lf ch : M K V _) := by unfold BT.mergeInto; dry
macro_rules | `(tactic| dry1) => `(tactic| with_reducible exact Dry.mergeInto _ _ _ _ _ _ _)
theorem shrinkRoot (τ : TreeId) (a : Id) : Dry (BT.shrinkRoot τ a : M K V _) := by unfold BT.shrinkRoot; dry
macro_rules | `(tactic| dry1) => `(tactic| with_reducible exact Dry.shrinkRoot _ _)
theorem dropSep (cmp : Compare K) (a b : Id) (n : Int) : Dry (BT.dropSep cmp a b n : M K V _) := by unfold BT.dropSep; dry
macro_rules | `(tactic| dry1) => `(tactic| with_reducible exact Dry.dropSep _ _ _ _)
theorem leftSibling (a : Id) (n : Int) : Dry (BT.leftSibling a n : M K V _) := by unfold BT.leftSibling; dry
macro_rules | `(tactic| dry1) => `(tactic| with_reducible exact Dry.leftSibling _ _)
theorem rightSibling (a : Id) (n : Int) : Dry (BT.rightSibling a n : M K V _) := by unfold BT.rightSibling; dry
macro_rules | `(tactic| dry1) => `(tactic| with_reducible exact Dry.rightSibling _ _)
theorem withErr {α : Type} (a : α) {m : M K V Unit} (hm : Dry m) : Dry (BT.withErr a m) := by unfold BT.withErr; dry
macro_rules | `(tactic| dry1) => `(tactic| with_reducible apply Dry.withErr)
theorem outOfRange (τ : TreeId) (i : Int) : Dry (BT.outOfRange τ i : M K V _) := by unfold BT.outOfRange; dry
macro_rules | `(tactic| dry1) => `(tactic| with_reducible exact Dry.outOfRange _ _)
theorem validatePrefixSum : ∀ (n : Nat) (i : Id), Dry (BT.validatePrefixSum n i : M K V _)
  | 0, _ => by unfold BT.validatePrefixSum; dry
  | n + 1, i => by
      have ih := validatePrefixSum n
      unfold BT.validatePrefixSum
      repeat' first | with_reducible exact ih _ | dry1
macro_rules | `(tactic| dry1) => `(tactic| with_reducible exact Dry.validatePrefixSum _ _)
theorem kvValidate (i : Id) : Dry (BT.kvValidate i : M K V _) := by unfold BT.kvValidate; dry
macro_rules | `(tactic| dry1) => `(tactic| with_reducible exact Dry.kvValidate _)
theorem valid (l : Nat) (c : Bool) : Dry (BT.valid l c : M K V _) := by unfold BT.valid; dry
macro_rules | `(tactic| dry1) => `(tactic| with_reducible exact Dry.valid _ _)
theorem fetchLocation (τ : TreeId) : Dry (BT.fetchLocation τ : M K V _) := by unfold BT.fetchLocation; dry
macro_rules | `(tactic| dry1) => `(tactic| with_reducible exact Dry.fetchLocation _)
theorem purge (τ : TreeId) (n : Nat) (full : Bool) : Dry (BT.purge τ n full : M K V _) := by unfold BT.purge; dry

end Dry

/-! ### How many nodes are read -/

/-- In any state, the action calls GetNode at most `n` times. -/
structure Reads (n : Nat) {α : Type} (m : M K V α) : Prop where
  run : ∀ w, w.env.gets ≤ (m w).2.env.gets ∧ (m w).2.env.gets ≤ w.env.gets + n

namespace Reads
variable {α β : Type} {a b n : Nat}

theorem bind {m : M K V α} {f : α → M K V β} (h : Reads a m) (g : ∀ x, Reads b (f x)) : Reads (a + b) (m >>= f) := by
  refine ⟨fun w => ?_⟩
  show _ ≤ (M.bind m f w).2.env.gets ∧ (M.bind m f w).2.env.gets ≤ _
  have := h.run w
  unfold M.bind
  rcases hm : m w with ⟨_ | _ | _, w'⟩ <;> rw [hm] at this <;> simp only at this ⊢
  · rename_i x
    have h2 := (g x).run w'
    omega
  · omega
  · omega

theorem dry {m : M K V α} (h : Dry m) : Reads n m := ⟨fun w => by have := h.run w; omega⟩
theorem le {m : M K V α} (h : Reads a m) (hl : a ≤ b) : Reads b m := ⟨fun w => by have := h.run w; omega⟩
theorem after {m : M K V α} {f : α → M K V β} (h : Dry m) (g : ∀ x, Reads n (f x)) : Reads n (m >>= f) := (bind (dry (n := 0) h) g).le (by omega)
theorem before {m : M K V α} {f : α → M K V β} (h : Reads n m) (g : ∀ x, Dry (f x)) : Reads n (m >>= f) := (bind h fun x => dry (n := 0) (g x)).le (by omega)
theorem attempt {m : M K V α} (h : Reads n m) : Reads n (M.attempt m) := by
  refine ⟨fun w => ?_⟩
  have := h.run w
  unfold M.attempt
  rcases hm : m w with ⟨_ | _ | _, w'⟩ <;> rw [hm] at this <;> exact this

end Reads

/-- loadNode calls GetNode once. -/
theorem loadNode_gets (cmp : Compare K) (τ : TreeId) (i : Id) (w : World K V) : (loadNode cmp τ i w).2.env.gets = w.env.gets + 1 := by
  have hrest : ∀ d : DiskNode K V, Dry (do
      BT.modN i fun n => { n with kv := some .nil }
      BT.unpack
      BT.modN i fun n => { n with items := d.items, root := d.root, leaf := d.body.isLeaf }
      BT.loadMax τ d
      BT.loadBody cmp τ i d.body
      BT.modN i fun n => { n with loaded := true }
      BT.markNodeClean τ i) := fun d => by dry
  unfold loadNode
  rw [getN_bind]
  have h3 : (getNode (w.node i).ref w).2.env.gets = w.env.gets + 1 := by
    unfold getNode
    dsimp only
    split
    · rfl
    · split <;> rfl
  show (M.bind _ _ w).2.env.gets = _
  unfold M.bind
  rcases hg : getNode (w.node i).ref w with ⟨_ | _ | _, w'⟩ <;> rw [hg] at h3 <;> simp only at h3 ⊢
  · rw [← h3]
    exact (hrest _).run w'
  · exact h3
  · exact h3

theorem Reads.loadNode (cmp : Compare K) (τ : TreeId) (i : Id) : Reads 1 (BT.loadNode cmp τ i : M K V Unit) := ⟨fun w => by rw [loadNode_gets]; omega⟩

theorem Reads.visit (cmp : Compare K) (τ : TreeId) (m : Bool) (i : Id) : Reads 1 (BT.visit cmp τ m i : M K V Unit) := by
  unfold BT.visit
  refine .after (.getN i) fun n => ?_
  split
  · exact .dry (by dry)
  · exact .after (.incCacheMisses τ) fun _ => .loadNode cmp τ i

/-- At most two siblings are read for every level the rebalancing goes up. -/
theorem Reads.canLend (cmp : Compare K) (τ : TreeId) (a : Option Id) : Reads 1 (BT.canLend cmp τ a : M K V _) := by
  unfold BT.canLend
  split
  · exact .dry (.pure _)
  · refine .before (.visit cmp τ true _) fun _ => ?_
    dry

theorem Reads.merge (cmp : Compare K) (τ : TreeId) {n : Nat} {m : M K V Unit} (hm : Reads n m) (a b c : Id) (k : Int) (lf ch : Bool) :
    Reads n (BT.merge cmp τ m a b c k lf ch) := by
  unfold BT.merge
  refine .after (.mergeInto _ _ _ _ _ _ _) fun _ => .after (.kvLen _) fun _ => .after (.getN _) fun _ => .before ?_ fun _ => ?_
  · split
    · exact .dry (.shrinkRoot _ _)
    · exact .after (.dropSep _ _ _ _) fun _ => hm
  · dry

/-- The rebalancing after a deletion reads at most two siblings for every level it goes up. -/
theorem Reads.rebalanceHere (cmp : Compare K) (τ : TreeId) : ∀ (n : Nat) (i : Id) (s : List Int), Reads (2 * s.length) (BT.rebalanceHere cmp τ n i s : M K V _)
  | 0, _, _ => by unfold BT.rebalanceHere; exact .dry .fatal
  | n + 1, i, s => by
      unfold BT.rebalanceHere
      refine .after (.getN i) fun x => ?_
      split
      · exact .dry (.pure _)
      refine .after (.kvLen i) fun _ => .after (.getT τ) fun _ => ?_
      split
      · exact .dry (.pure _)
      refine .after (.deref _) fun parent => ?_
      cases s with
      | nil =>
        refine ⟨fun w => ?_⟩
        show _ ≤ (M.bind _ _ w).2.env.gets ∧ (M.bind _ _ w).2.env.gets ≤ _
        simp [M.bind, M.deref, M.fatal]
      | cons y s =>
        refine .after (.deref _) fun pIdx => .after (.leftSibling _ _) fun l => ?_
        refine (Reads.bind (b := 1 + 2 * s.length) (.canLend cmp τ l) fun q => ?_).le (by simp; omega)
        split
        · exact .dry (.borrowLeft _ _ _ _ _ _ _)
        refine .after (.rightSibling _ _) fun r => .bind (.canLend cmp τ r) fun q => ?_
        split
        · exact .dry (.borrowRight _ _ _ _ _ _)
        split
        · exact .merge cmp τ (rebalanceHere cmp τ n _ _) _ _ _ _ _ _
        · exact .merge cmp τ (rebalanceHere cmp τ n _ _) _ _ _ _ _ _
        · exact .dry (.throw _)

end SM.BT

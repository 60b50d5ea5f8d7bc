import Verif.BTree.Dump

/-! Which calls touch the client's storage, whatever the state they are made in: only Flush, Prune and Discard. -/

namespace SM.BT

variable {K V : Type}

/-- Nothing was written to the client's storage or discarded from it, and the client is as before but for what it was asked to read. -/
structure Idle (w w' : World K V) : Prop where
  disk : w'.disk = w.disk
  log : w'.log = w.log
  puts : w'.env.puts = w.env.puts
  discards : w'.env.discards = w.env.discards
  getF : w'.env.getFails = w.env.getFails
  unpF : w'.env.unpackFails = w.env.unpackFails
  putL : (w'.env.putLoc, w'.env.packFails) = (w.env.putLoc, w.env.packFails)
  disF : w'.env.discardFails = w.env.discardFails

theorem Idle.refl (w : World K V) : Idle w w := ⟨rfl, rfl, rfl, rfl, rfl, rfl, rfl, rfl⟩
theorem Idle.trans {a b c : World K V} (h : Idle a b) (g : Idle b c) : Idle a c :=
  ⟨g.disk.trans h.disk, g.log.trans h.log, g.puts.trans h.puts, g.discards.trans h.discards, g.getF.trans h.getF, g.unpF.trans h.unpF,
   g.putL.trans h.putL, g.disF.trans h.disF⟩

/-- In any state, the action leaves the storage alone. -/
structure Still {α : Type} (m : M K V α) : Prop where
  run : ∀ w, Idle w (m w).2

namespace Still
variable {α β : Type}

theorem bind {m : M K V α} {f : α → M K V β} (h : Still m) (g : ∀ a, Still (f a)) : Still (m >>= f) := by
  refine ⟨fun w => ?_⟩
  show Idle w (M.bind m f w).2
  have := h.run w
  unfold M.bind
  rcases hm : m w with ⟨_ | _ | _, w'⟩ <;> rw [hm] at this <;> simp only at this ⊢
  · exact this.trans ((g _).run _)
  · exact this
  · exact this

theorem pure (a : α) : Still (Pure.pure a : M K V α) := ⟨fun w => .refl w⟩
theorem throw (e : Err) : Still (M.throw e : M K V α) := ⟨fun w => .refl w⟩
theorem fatal : Still (M.fatal : M K V α) := ⟨fun w => .refl w⟩
theorem attempt {m : M K V α} (h : Still m) : Still (M.attempt m) := by
  refine ⟨fun w => ?_⟩
  have := h.run w
  unfold M.attempt
  rcases hm : m w with ⟨_ | _ | _, w'⟩ <;> rw [hm] at this <;> exact this
theorem deref (a : Option α) : Still (M.deref a : M K V α) := by cases a <;> exact ⟨fun w => .refl w⟩
theorem must (n : Nat) (a : Option α) : Still (M.must n a : M K V α) := by cases a <;> exact ⟨fun w => .refl w⟩
theorem check (n : Nat) (b : Bool) : Still (M.check n b : M K V Unit) := by cases b <;> exact ⟨fun w => .refl w⟩
theorem getN (i : Id) : Still (BT.getN i : M K V _) := ⟨fun w => .refl w⟩
theorem getP (i : Id) : Still (BT.getP i : M K V _) := ⟨fun w => .refl w⟩
theorem getT (i : TreeId) : Still (BT.getT i : M K V _) := ⟨fun w => .refl w⟩
theorem modN (i : Id) (f : NodeS K V → NodeS K V) : Still (BT.modN i f) := ⟨fun _ => ⟨rfl, rfl, rfl, rfl, rfl, rfl, rfl, rfl⟩⟩
theorem modP (i : Id) (f : PSum → PSum) : Still (BT.modP i f : M K V Unit) := ⟨fun _ => ⟨rfl, rfl, rfl, rfl, rfl, rfl, rfl, rfl⟩⟩
theorem modT (i : TreeId) (f : TreeS → TreeS) : Still (BT.modT i f : M K V Unit) := ⟨fun _ => ⟨rfl, rfl, rfl, rfl, rfl, rfl, rfl, rfl⟩⟩
theorem alloc (n : NodeS K V) : Still (BT.alloc n) := ⟨fun _ => ⟨rfl, rfl, rfl, rfl, rfl, rfl, rfl, rfl⟩⟩
theorem onLru (τ : TreeId) (f : LruS → Option LruS) : Still (BT.onLru τ f : M K V Unit) := by
  refine ⟨fun w => ?_⟩
  unfold BT.onLru
  split
  · split <;> exact ⟨rfl, rfl, rfl, rfl, rfl, rfl, rfl, rfl⟩
  · exact .refl w
theorem onCtl (τ : TreeId) (f : Ctl → Ctl) : Still (BT.onCtl τ f : M K V Unit) := by
  refine ⟨fun w => ?_⟩
  unfold BT.onCtl
  split <;> exact ⟨rfl, rfl, rfl, rfl, rfl, rfl, rfl, rfl⟩
theorem startDrainer (τ : TreeId) : Still (BT.startDrainer τ : M K V Unit) := ⟨fun w => (onCtl τ _).run w⟩
theorem getNode (r : Ref) : Still (BT.getNode r : M K V _) := by
  refine ⟨fun w => ?_⟩
  unfold BT.getNode
  dsimp only
  split
  · exact ⟨rfl, rfl, rfl, rfl, rfl, rfl, rfl, rfl⟩
  · split <;> exact ⟨rfl, rfl, rfl, rfl, rfl, rfl, rfl, rfl⟩
theorem unpack : Still (BT.unpack : M K V _) := by
  refine ⟨fun w => ?_⟩
  unfold BT.unpack
  dsimp only
  split <;> exact ⟨rfl, rfl, rfl, rfl, rfl, rfl, rfl, rfl⟩
theorem pack : Still (BT.pack : M K V _) := by
  refine ⟨fun w => ?_⟩
  unfold BT.pack
  dsimp only
  split <;> exact ⟨rfl, rfl, rfl, rfl, rfl, rfl, rfl, rfl⟩

end Still

/-- One step of a proof of `Still`; each function adds itself below. -/
syntax "still1" : tactic
macro_rules | `(tactic| still1) => `(tactic| dsimp only)
macro_rules | `(tactic| still1) => `(tactic| with_reducible assumption)
macro_rules | `(tactic| still1) => `(tactic| intro _)
macro_rules | `(tactic| still1) => `(tactic| split)
macro_rules | `(tactic| still1) => `(tactic| with_reducible apply Still.bind)
macro_rules | `(tactic| still1) => `(tactic| with_reducible apply Still.attempt)
macro_rules | `(tactic| still1) => `(tactic| with_reducible first | exact Still.pure _ | exact Still.throw _ | exact Still.fatal | exact Still.deref _ | exact Still.must _ _ | exact Still.check _ _ | exact Still.getN _ | exact Still.getP _ | exact Still.getT _ | exact Still.modN _ _ | exact Still.modP _ _ | exact Still.modT _ _ | exact Still.alloc _ | exact Still.onLru _ _ | exact Still.onCtl _ _ | exact Still.startDrainer _ | exact Still.getNode _ | exact Still.unpack | exact Still.pack)
macro "still" : tactic => `(tactic| repeat' still1)

namespace Still

theorem rootOf (τ : TreeId) : Still (BT.rootOf τ : M K V Id) := by unfold BT.rootOf; still
macro_rules | `(tactic| still1) => `(tactic| with_reducible exact Still.rootOf _)
theorem kvOf (i : Id) : Still (BT.kvOf i : M K V _) := by unfold BT.kvOf; still
macro_rules | `(tactic| still1) => `(tactic| with_reducible exact Still.kvOf _)
theorem setKv (i : Id) (t : LLRB.Tree K (Val V)) : Still (BT.setKv i t) := by unfold BT.setKv; still
macro_rules | `(tactic| still1) => `(tactic| with_reducible exact Still.setKv _ _)
theorem kvLen (i : Id) : Still (BT.kvLen i : M K V _) := by unfold BT.kvLen; still
macro_rules | `(tactic| still1) => `(tactic| with_reducible exact Still.kvLen _)
theorem kvGetByIndex (i : Id) (n : Int) : Still (BT.kvGetByIndex i n : M K V _) := by unfold BT.kvGetByIndex; still
macro_rules | `(tactic| still1) => `(tactic| with_reducible exact Still.kvGetByIndex _ _)
theorem kvFinish (i : Id) (r : Option ((Bool × Option Err) × LLRB.Tree K (Val V))) : Still (BT.kvFinish i r) := by unfold BT.kvFinish; still
macro_rules | `(tactic| still1) => `(tactic| with_reducible exact Still.kvFinish _ _)
theorem kvPut (cmp : Compare K) (i : Id) (k : K) (v : Val V) : Still (BT.kvPut cmp i k v) := by unfold BT.kvPut; still
macro_rules | `(tactic| still1) => `(tactic| with_reducible exact Still.kvPut _ _ _ _)
theorem kvPutIgnore (cmp : Compare K) (i : Id) (k : K) (v : Val V) : Still (BT.kvPutIgnore cmp i k v) := by unfold BT.kvPutIgnore; still
macro_rules | `(tactic| still1) => `(tactic| with_reducible exact Still.kvPutIgnore _ _ _ _)
theorem kvDeleteByIndex (cmp : Compare K) (i : Id) (n : Int) : Still (BT.kvDeleteByIndex cmp i n : M K V _) := by unfold BT.kvDeleteByIndex; still
macro_rules | `(tactic| still1) => `(tactic| with_reducible exact Still.kvDeleteByIndex _ _ _)
theorem liftBisect (r : Option (Int × Bool × Option Err)) : Still (BT.liftBisect r : M K V _) := by unfold BT.liftBisect; still
macro_rules | `(tactic| still1) => `(tactic| with_reducible exact Still.liftBisect _)
theorem asNode (v : Val V) : Still (BT.asNode v : M K V _) := by unfold BT.asNode; still
macro_rules | `(tactic| still1) => `(tactic| with_reducible exact Still.asNode _)
theorem asItem (v : Val V) : Still (BT.asItem v : M K V _) := by unfold BT.asItem; still
macro_rules | `(tactic| still1) => `(tactic| with_reducible exact Still.asItem _)
theorem kvChild (i : Id) (n : Int) : Still (BT.kvChild i n : M K V _) := by unfold BT.kvChild; still
macro_rules | `(tactic| still1) => `(tactic| with_reducible exact Still.kvChild _ _)
theorem kvChildOk (l : Nat) (i : Id) (n : Int) : Still (BT.kvChildOk l i n : M K V _) := by unfold BT.kvChildOk; still
macro_rules | `(tactic| still1) => `(tactic| with_reducible exact Still.kvChildOk _ _ _)
theorem initNodeAsEvicted (τ : TreeId) (i : Id) : Still (BT.initNodeAsEvicted τ i : M K V _) := by unfold BT.initNodeAsEvicted; still
theorem incCacheHits (τ : TreeId) : Still (BT.incCacheHits τ : M K V _) := by unfold BT.incCacheHits; still
theorem incCacheMisses (τ : TreeId) : Still (BT.incCacheMisses τ : M K V _) := by unfold BT.incCacheMisses; still
theorem markNodeUsed (τ : TreeId) (i : Id) : Still (BT.markNodeUsed τ i : M K V _) := by unfold BT.markNodeUsed; still
theorem markNodeClean (τ : TreeId) (i : Id) : Still (BT.markNodeClean τ i : M K V _) := by unfold BT.markNodeClean; still
theorem placeStale (τ : TreeId) (i : Id) : Still (BT.placeStale τ i : M K V _) := by unfold BT.placeStale; still
macro_rules | `(tactic| still1) => `(tactic| with_reducible exact Still.placeStale _ _)
theorem markNodeDirty (τ : TreeId) (i : Id) : Still (BT.markNodeDirty τ i : M K V _) := by unfold BT.markNodeDirty; still
theorem markNodeEvicted (τ : TreeId) (i : Id) : Still (BT.markNodeEvicted τ i : M K V _) := by unfold BT.markNodeEvicted; still
theorem markNodeToBeDiscarded (τ : TreeId) (i : Id) : Still (BT.markNodeToBeDiscarded τ i : M K V _) := by unfold BT.markNodeToBeDiscarded; still
macro_rules | `(tactic| still1) => `(tactic| with_reducible first | exact Still.initNodeAsEvicted _ _ | exact Still.incCacheHits _ | exact Still.incCacheMisses _ | exact Still.markNodeUsed _ _ | exact Still.markNodeClean _ _ | exact Still.markNodeDirty _ _ | exact Still.markNodeEvicted _ _ | exact Still.markNodeToBeDiscarded _ _)

theorem arrangeRec : ∀ (n : Nat) (l : List Id), Still (BT.arrangeRec n l : M K V _)
  | 0, _ => by unfold BT.arrangeRec; still
  | n + 1, l => by
      have ih := arrangeRec n
      unfold BT.arrangeRec
      repeat' first | with_reducible exact ih _ | still1
macro_rules | `(tactic| still1) => `(tactic| with_reducible exact Still.arrangeRec _ _)
theorem resetPs (c : Id) (n : Int) : Still (BT.resetPs c n : M K V _) := by unfold BT.resetPs; still
macro_rules | `(tactic| still1) => `(tactic| with_reducible exact Still.resetPs _ _)
theorem arrangeLoop (node : Id) : ∀ (i k : Nat), Still (BT.arrangeLoop node i k : M K V _)
  | _, 0 => by unfold BT.arrangeLoop; still
  | i, k + 1 => by
      have ih := arrangeLoop node (i + 1) k
      unfold BT.arrangeLoop
      still
macro_rules | `(tactic| still1) => `(tactic| with_reducible exact Still.arrangeLoop _ _ _)
theorem arrangePrefixSumTree (i : Id) : Still (BT.arrangePrefixSumTree i : M K V _) := by unfold BT.arrangePrefixSumTree; still
macro_rules | `(tactic| still1) => `(tactic| with_reducible exact Still.arrangePrefixSumTree _)
theorem arrangeIgnore (i : Id) : Still (BT.arrangeIgnore i : M K V _) := by unfold BT.arrangeIgnore; still
macro_rules | `(tactic| still1) => `(tactic| with_reducible exact Still.arrangeIgnore _)
theorem rearrange (τ : TreeId) : ∀ (n : Nat) (i : Id), Still (BT.rearrangePrefixSumTreeToRoot τ n i : M K V _)
  | 0, _ => by unfold BT.rearrangePrefixSumTreeToRoot; still
  | n + 1, i => by
      have ih := rearrange τ n
      unfold BT.rearrangePrefixSumTreeToRoot
      repeat' first | with_reducible exact ih _ | still1
macro_rules | `(tactic| still1) => `(tactic| with_reducible exact Still.rearrange _ _ _)
theorem updatePsUp (δ : Int) : ∀ (n : Nat) (i : Id), Still (BT.updatePsUp δ n i : M K V _)
  | 0, _ => by unfold BT.updatePsUp; still
  | n + 1, i => by
      have ih := updatePsUp δ n
      unfold BT.updatePsUp
      repeat' first | with_reducible exact ih _ | still1
macro_rules | `(tactic| still1) => `(tactic| with_reducible exact Still.updatePsUp _ _ _)
theorem updateRec (τ : TreeId) (δ : Int) : ∀ (n : Nat) (i : Id), Still (BT.updateRec τ δ n i : M K V _)
  | 0, _ => by unfold BT.updateRec; still
  | n + 1, i => by
      have ih := updateRec τ δ n
      unfold BT.updateRec
      repeat' first | with_reducible exact ih _ | still1
macro_rules | `(tactic| still1) => `(tactic| with_reducible exact Still.updateRec _ _ _ _)
theorem update (τ : TreeId) (n : Nat) (i : Id) : Still (BT.updatePrefixSumTreeLeafToRoot τ n i : M K V _) := by
  unfold BT.updatePrefixSumTreeLeafToRoot; still
macro_rules | `(tactic| still1) => `(tactic| with_reducible exact Still.update _ _ _)
theorem touchUp (τ : TreeId) : ∀ (n : Nat) (i : Id), Still (BT.touchLoadedNodeToRoot τ n i : M K V _)
  | 0, _ => by unfold BT.touchLoadedNodeToRoot; still
  | n + 1, i => by
      have ih := touchUp τ n
      unfold BT.touchLoadedNodeToRoot
      repeat' first | with_reducible exact ih _ | still1
macro_rules | `(tactic| still1) => `(tactic| with_reducible exact Still.touchUp _ _ _)

theorem loadLeafLoop (cmp : Compare K) (i : Id) : ∀ l : List (K × V), Still (BT.loadLeafLoop cmp i l)
  | [] => by unfold BT.loadLeafLoop; still
  | (k, v) :: l => by
      have ih := loadLeafLoop cmp i l
      unfold BT.loadLeafLoop
      still
macro_rules | `(tactic| still1) => `(tactic| with_reducible exact Still.loadLeafLoop _ _ _)
theorem loadInnerLoop (cmp : Compare K) (τ : TreeId) (i : Id) : ∀ l, Still (BT.loadInnerLoop cmp τ i l : M K V _)
  | [] => by unfold BT.loadInnerLoop; still
  | (k, v) :: l => by
      have ih := loadInnerLoop cmp τ i l
      unfold BT.loadInnerLoop
      still
macro_rules | `(tactic| still1) => `(tactic| with_reducible exact Still.loadInnerLoop _ _ _ _)
theorem loadBody (cmp : Compare K) (τ : TreeId) (i : Id) (b : DiskBody K V) : Still (BT.loadBody cmp τ i b) := by cases b <;> (unfold BT.loadBody; still)
macro_rules | `(tactic| still1) => `(tactic| with_reducible exact Still.loadBody _ _ _ _)
theorem loadMax (τ : TreeId) (d : DiskNode K V) : Still (BT.loadMax τ d) := by unfold BT.loadMax; still
macro_rules | `(tactic| still1) => `(tactic| with_reducible exact Still.loadMax _ _)
theorem loadNode (cmp : Compare K) (τ : TreeId) (i : Id) : Still (BT.loadNode cmp τ i : M K V _) := by unfold BT.loadNode; still
macro_rules | `(tactic| still1) => `(tactic| with_reducible exact Still.loadNode _ _ _)
theorem evict (τ : TreeId) (i : Id) : Still (BT.evict τ i : M K V _) := by unfold BT.evict; still
macro_rules | `(tactic| still1) => `(tactic| with_reducible exact Still.evict _ _)
theorem forChildren (l : Nat) (i : Id) {f : Id → M K V Unit} (hf : ∀ c, Still (f c)) : ∀ (a k : Nat), Still (BT.forChildren l i f a k)
  | _, 0 => by unfold BT.forChildren; still
  | a, k + 1 => by
      have ih := forChildren l i hf (a + 1) k
      unfold BT.forChildren
      repeat' first | with_reducible exact hf _ | still1
theorem eachChild (l : Nat) (i : Id) {f : Id → M K V Unit} (hf : ∀ c, Still (f c)) : Still (BT.eachChild l i f) := by
  have := forChildren l i hf
  unfold BT.eachChild
  repeat' first | with_reducible exact hf _ | with_reducible exact this _ _ | still1
macro_rules | `(tactic| still1) => `(tactic| with_reducible apply Still.eachChild)
theorem purgeNode (τ : TreeId) (full : Bool) : ∀ (n : Nat) (i : Id), Still (BT.purgeNode τ full n i : M K V _)
  | 0, _ => by unfold BT.purgeNode; still
  | n + 1, i => by
      have ih := purgeNode τ full n
      unfold BT.purgeNode
      repeat' first | with_reducible exact ih _ | still1
macro_rules | `(tactic| still1) => `(tactic| with_reducible exact Still.purgeNode _ _ _ _)
theorem visit (cmp : Compare K) (τ : TreeId) (m : Bool) (i : Id) : Still (BT.visit cmp τ m i : M K V _) := by unfold BT.visit; still
macro_rules | `(tactic| still1) => `(tactic| with_reducible exact Still.visit _ _ _ _)
theorem touchNode (cmp : Compare K) (τ : TreeId) : ∀ (n : Nat) (i : Id), Still (BT.touchNode cmp τ n i : M K V _)
  | 0, _ => by unfold BT.touchNode; still
  | n + 1, i => by
      have ih := touchNode cmp τ n
      unfold BT.touchNode
      repeat' first | with_reducible exact ih _ | still1
macro_rules | `(tactic| still1) => `(tactic| with_reducible exact Still.touchNode _ _ _ _)
theorem discardNode (cmp : Compare K) (τ : TreeId) : ∀ (n : Nat) (i : Id), Still (BT.discardNode cmp τ n i : M K V _)
  | 0, _ => by unfold BT.discardNode; still
  | n + 1, i => by
      have ih := discardNode cmp τ n
      unfold BT.discardNode
      repeat' first | with_reducible exact ih _ | still1
macro_rules | `(tactic| still1) => `(tactic| with_reducible exact Still.discardNode _ _ _ _)

theorem childFor (cmp : Compare K) (i : Id) (k : K) : Still (BT.childFor cmp i k : M K V _) := by unfold BT.childFor; still
macro_rules | `(tactic| still1) => `(tactic| with_reducible exact Still.childFor _ _ _)
theorem psFind : ∀ (n : Nat) (i : Id) (m : Nat), Still (BT.psFind n i m : M K V _)
  | 0, _, _ => by unfold BT.psFind; still
  | n + 1, i, m => by
      have ih := psFind n
      unfold BT.psFind
      repeat' first | with_reducible exact ih _ _ | still1
macro_rules | `(tactic| still1) => `(tactic| with_reducible exact Still.psFind _ _ _)
theorem leftSum (i : Id) : Still (BT.leftSum i : M K V _) := by unfold BT.leftSum; still
macro_rules | `(tactic| still1) => `(tactic| with_reducible exact Still.leftSum _)
theorem psClimb : ∀ (n : Nat) (i : Id) (s : List Bool), Still (BT.psClimb n i s : M K V _)
  | 0, _, _ => by unfold BT.psClimb; still
  | n + 1, i, m => by
      have ih := psClimb n
      unfold BT.psClimb
      repeat' first | with_reducible exact ih _ _ | still1
macro_rules | `(tactic| still1) => `(tactic| with_reducible exact Still.psClimb _ _ _)
theorem psDescend : ∀ (s : List Bool) (i : Id) (n : Nat), Still (BT.psDescend s i n : M K V _)
  | [], _, _ => by unfold BT.psDescend; still
  | true :: s, i, m => by
      have ih := psDescend s
      unfold BT.psDescend
      repeat' first | with_reducible exact ih _ _ | still1
  | false :: s, i, m => by
      have ih := psDescend s
      unfold BT.psDescend
      repeat' first | with_reducible exact ih _ _ | still1
macro_rules | `(tactic| still1) => `(tactic| with_reducible exact Still.psDescend _ _ _)
theorem psDelta (n : Nat) (i c : Id) (m : Nat) : Still (BT.psDelta n i c m : M K V _) := by unfold BT.psDelta; still
macro_rules | `(tactic| still1) => `(tactic| with_reducible exact Still.psDelta _ _ _ _)
theorem bisectLoop (cmp : Compare K) (τ : TreeId) (f : LLRB.Tree K (Val V) → Option (Int × Bool × Option Err)) (k : K) :
    ∀ (n : Nat) (i : Id) (m : Nat), Still (BT.bisectLoop cmp τ f k n i m)
  | 0, _, _ => by unfold BT.bisectLoop; still
  | n + 1, i, m => by
      have ih := bisectLoop cmp τ f k n
      unfold BT.bisectLoop
      repeat' first | with_reducible exact ih _ _ | still1
macro_rules | `(tactic| still1) => `(tactic| with_reducible exact Still.bisectLoop _ _ _ _ _ _ _)
theorem indexDescend (cmp : Compare K) (τ : TreeId) (mk : Bool) : ∀ (n : Nat) (i : Id) (m : Nat) (s : List Int), Still (BT.indexDescend cmp τ mk n i m s : M K V _)
  | 0, _, _, _ => by unfold BT.indexDescend; still
  | n + 1, i, m, s => by
      have ih := indexDescend cmp τ mk n
      unfold BT.indexDescend
      repeat' first | with_reducible exact ih _ _ _ | still1
macro_rules | `(tactic| still1) => `(tactic| with_reducible exact Still.indexDescend _ _ _ _ _ _ _)
theorem keyDescend (cmp : Compare K) (τ : TreeId) (mk : Bool) (k : K) : ∀ (n : Nat) (i : Id) (s : List Int), Still (BT.keyDescend cmp τ mk k n i s : M K V _)
  | 0, _, _ => by unfold BT.keyDescend; still
  | n + 1, i, s => by
      have ih := keyDescend cmp τ mk k n
      unfold BT.keyDescend
      repeat' first | with_reducible exact ih _ _ | still1
macro_rules | `(tactic| still1) => `(tactic| with_reducible exact Still.keyDescend _ _ _ _ _ _ _)

theorem splitLoop (cmp : Compare K) (mn : Nat) (lf : Bool) (a b : Id) : ∀ n, Still (BT.splitLoop cmp mn lf a b n : M K V _)
  | 0 => by unfold BT.splitLoop; still
  | n + 1 => by
      have ih := splitLoop cmp mn lf a b n
      unfold BT.splitLoop
      still
macro_rules | `(tactic| still1) => `(tactic| with_reducible exact Still.splitLoop _ _ _ _ _ _)
theorem growRoot (cmp : Compare K) (τ : TreeId) (a b : Id) (k : K) : Still (BT.growRoot cmp τ a b k : M K V _) := by unfold BT.growRoot; still
macro_rules | `(tactic| still1) => `(tactic| with_reducible exact Still.growRoot _ _ _ _ _)
theorem splitNode (cmp : Compare K) (τ : TreeId) (a : Id) (n : Nat) : Still (BT.splitNode cmp τ a n : M K V _) := by unfold BT.splitNode; still
macro_rules | `(tactic| still1) => `(tactic| with_reducible exact Still.splitNode _ _ _ _)
theorem insertHere (cmp : Compare K) (τ : TreeId) (big : Nat) : ∀ (n : Nat) (i : Id) (k : K) (v : Val V), Still (BT.insertHere cmp τ big n i k v)
  | 0, _, _, _ => by unfold BT.insertHere; still
  | n + 1, i, k, v => by
      have ih := insertHere cmp τ big n
      unfold BT.insertHere
      repeat' first | with_reducible exact ih _ _ _ | still1
macro_rules | `(tactic| still1) => `(tactic| with_reducible exact Still.insertHere _ _ _ _ _ _ _)

theorem borrowLeftLeaf (cmp : Compare K) (a b c : Id) (m n : Int) : Still (BT.borrowLeftLeaf cmp a b c m n : M K V _) := by unfold BT.borrowLeftLeaf; still
macro_rules | `(tactic| still1) => `(tactic| with_reducible exact Still.borrowLeftLeaf _ _ _ _ _ _)
theorem borrowLeftInner (cmp : Compare K) (a b c : Id) (m n : Int) : Still (BT.borrowLeftInner cmp a b c m n : M K V _) := by unfold BT.borrowLeftInner; still
macro_rules | `(tactic| still1) => `(tactic| with_reducible exact Still.borrowLeftInner _ _ _ _ _ _)
theorem borrowLeft (cmp : Compare K) (τ : TreeId) (a b c : Id) (m n : Int) : Still (BT.borrowLeft cmp τ a b c m n : M K V _) := by unfold BT.borrowLeft; still
macro_rules | `(tactic| still1) => `(tactic| with_reducible exact Still.borrowLeft _ _ _ _ _ _ _)
theorem borrowRightLeaf (cmp : Compare K) (a b c : Id) (m : Int) : Still (BT.borrowRightLeaf cmp a b c m : M K V _) := by unfold BT.borrowRightLeaf; still
macro_rules | `(tactic| still1) => `(tactic| with_reducible exact Still.borrowRightLeaf _ _ _ _ _)
theorem borrowRightInner (cmp : Compare K) (a b c : Id) (m : Int) : Still (BT.borrowRightInner cmp a b c m : M K V _) := by unfold BT.borrowRightInner; still
macro_rules | `(tactic| still1) => `(tactic| with_reducible exact Still.borrowRightInner _ _ _ _ _)
theorem borrowRight (cmp : Compare K) (τ : TreeId) (a b c : Id) (m : Int) : Still (BT.borrowRight cmp τ a b c m : M K V _) := by unfold BT.borrowRight; still
macro_rules | `(tactic| still1) => `(tactic| with_reducible exact Still.borrowRight _ _ _ _ _ _)
theorem reparent (v : Val V) (i : Id) : Still (BT.reparent v i : M K V _) := by unfold BT.reparent; still
macro_rules | `(tactic| still1) => `(tactic| with_reducible exact Still.reparent _ _)
theorem mergeLoop (cmp : Compare K) (a b : Id) : ∀ (i k : Nat), Still (BT.mergeLoop cmp a b i k : M K V _)
  | _, 0 => by unfold BT.mergeLoop; still
  | i, k + 1 => by
      have ih := mergeLoop cmp a b (i + 1) k
      unfold BT.mergeLoop
      still
macro_rules | `(tactic| still1) => `(tactic| with_reducible exact Still.mergeLoop _ _ _ _ _)
theorem mergeInto (cmp : Compare K) (a b c : Id) (n : Int) (lf ch : Bool) : Still (BT.mergeInto cmp a b c n lf ch : M K V _) := by unfold BT.mergeInto; still
macro_rules | `(tactic| still1) => `(tactic| with_reducible exact Still.mergeInto _ _ _ _ _ _ _)
theorem shrinkRoot (τ : TreeId) (a : Id) : Still (BT.shrinkRoot τ a : M K V _) := by unfold BT.shrinkRoot; still
macro_rules | `(tactic| still1) => `(tactic| with_reducible exact Still.shrinkRoot _ _)
theorem dropSep (cmp : Compare K) (a b : Id) (n : Int) : Still (BT.dropSep cmp a b n : M K V _) := by unfold BT.dropSep; still
macro_rules | `(tactic| still1) => `(tactic| with_reducible exact Still.dropSep _ _ _ _)
theorem merge (cmp : Compare K) (τ : TreeId) {m : M K V Unit} (hm : Still m) (a b c : Id) (n : Int) (lf ch : Bool) : Still (BT.merge cmp τ m a b c n lf ch) := by
  unfold BT.merge; still
theorem leftSibling (a : Id) (n : Int) : Still (BT.leftSibling a n : M K V _) := by unfold BT.leftSibling; still
macro_rules | `(tactic| still1) => `(tactic| with_reducible exact Still.leftSibling _ _)
theorem rightSibling (a : Id) (n : Int) : Still (BT.rightSibling a n : M K V _) := by unfold BT.rightSibling; still
macro_rules | `(tactic| still1) => `(tactic| with_reducible exact Still.rightSibling _ _)
theorem canLend (cmp : Compare K) (τ : TreeId) (a : Option Id) : Still (BT.canLend cmp τ a : M K V _) := by unfold BT.canLend; still
macro_rules | `(tactic| still1) => `(tactic| with_reducible exact Still.canLend _ _ _)
theorem rebalanceHere (cmp : Compare K) (τ : TreeId) : ∀ (n : Nat) (i : Id) (s : List Int), Still (BT.rebalanceHere cmp τ n i s : M K V _)
  | 0, _, _ => by unfold BT.rebalanceHere; still
  | n + 1, i, s => by
      have ih := rebalanceHere cmp τ n
      unfold BT.rebalanceHere
      repeat' first | with_reducible exact ih _ _ | with_reducible apply Still.merge | still1
macro_rules | `(tactic| still1) => `(tactic| with_reducible exact Still.rebalanceHere _ _ _ _ _)
theorem withErr {α : Type} (a : α) {m : M K V Unit} (hm : Still m) : Still (BT.withErr a m) := by unfold BT.withErr; still
macro_rules | `(tactic| still1) => `(tactic| with_reducible apply Still.withErr)
theorem outOfRange (τ : TreeId) (i : Int) : Still (BT.outOfRange τ i : M K V _) := by unfold BT.outOfRange; still
macro_rules | `(tactic| still1) => `(tactic| with_reducible exact Still.outOfRange _ _)
theorem afterDelete (cmp : Compare K) (τ : TreeId) (n : Nat) (i : Id) (s : List Int) : Still (BT.afterDelete cmp τ n i s : M K V _) := by unfold BT.afterDelete; still
macro_rules | `(tactic| still1) => `(tactic| with_reducible exact Still.afterDelete _ _ _ _ _)

theorem validatePrefixSum : ∀ (n : Nat) (i : Id), Still (BT.validatePrefixSum n i : M K V _)
  | 0, _ => by unfold BT.validatePrefixSum; still
  | n + 1, i => by
      have ih := validatePrefixSum n
      unfold BT.validatePrefixSum
      repeat' first | with_reducible exact ih _ | still1
macro_rules | `(tactic| still1) => `(tactic| with_reducible exact Still.validatePrefixSum _ _)
theorem validateLoad (cmp : Compare K) (i : Id) : Still (BT.validateLoad cmp i : M K V _) := by unfold BT.validateLoad; still
macro_rules | `(tactic| still1) => `(tactic| with_reducible exact Still.validateLoad _ _)
theorem kvValidate (i : Id) : Still (BT.kvValidate i : M K V _) := by unfold BT.kvValidate; still
macro_rules | `(tactic| still1) => `(tactic| with_reducible exact Still.kvValidate _)
theorem valid (l : Nat) (c : Bool) : Still (BT.valid l c : M K V _) := by unfold BT.valid; still
macro_rules | `(tactic| still1) => `(tactic| with_reducible exact Still.valid _ _)
theorem validateChild (l : Nat) (i : Id) {f : Id → M K V Unit} (hf : ∀ c, Still (f c)) (c : Id) : Still (BT.validateChild l i f c) := by
  unfold BT.validateChild
  repeat' first | with_reducible exact hf _ | still1
theorem validateLoop (i : Id) {f : Id → M K V Unit} (hf : ∀ c, Still (f c)) : ∀ (a k : Nat), Still (BT.validateLoop i f a k)
  | _, 0 => by unfold BT.validateLoop; still
  | a, k + 1 => by
      have ih := validateLoop i hf (a + 1) k
      unfold BT.validateLoop
      repeat' first | with_reducible exact Still.validateChild _ _ hf _ | still1
theorem validateNode (cmp : Compare K) : ∀ (n : Nat) (i : Id), Still (BT.validateNode cmp n i : M K V _)
  | 0, _ => by unfold BT.validateNode; still
  | n + 1, i => by
      have ih := validateNode cmp n
      unfold BT.validateNode
      repeat' first | with_reducible exact Still.validateChild _ _ ih _ | with_reducible exact Still.validateLoop _ ih _ _ | still1
macro_rules | `(tactic| still1) => `(tactic| with_reducible exact Still.validateNode _ _ _)

/-- No call of the `SortedMap` interface writes or discards anything. -/
theorem step (cmp : Compare K) (τ : TreeId) (n : Nat) (op : Spec.Op K V) : Still (BT.step cmp τ n op) := by
  cases op <;> simp only [BT.step, BT.put, BT.getByKey, BT.getByIndex, BT.patchByKey, BT.patchByIndex, BT.deleteByKey, BT.deleteByIndex, BT.bisectLeft,
    BT.bisectRight, BT.len, BT.validate] <;> still

theorem fetchLocation (τ : TreeId) : Still (BT.fetchLocation τ : M K V _) := by unfold BT.fetchLocation; still
macro_rules | `(tactic| still1) => `(tactic| with_reducible exact Still.fetchLocation _)
mutual
theorem updateLayoutReport (cmp : Compare K) (τ : TreeId) : ∀ (n : Nat) (i : Id) (m : Layout), Still (BT.updateLayoutReport cmp τ n i m : M K V _)
  | 0, _, _ => by unfold BT.updateLayoutReport; still
  | n + 1, i, m => by
      have ih := updateLayoutReport cmp τ n
      have ih2 := layoutLoop cmp τ n
      unfold BT.updateLayoutReport
      repeat' first | with_reducible exact ih _ _ | with_reducible exact ih2 _ _ _ _ | still1
theorem layoutLoop (cmp : Compare K) (τ : TreeId) : ∀ (n : Nat) (i : Id) (a k : Nat) (m : Layout), Still (BT.layoutLoop cmp τ n i a k m : M K V _)
  | _, _, _, 0, _ => by unfold BT.layoutLoop; still
  | n, i, a, k + 1, m => by
      have ih := updateLayoutReport cmp τ n
      have ih2 := fun a m => layoutLoop cmp τ n i a k m
      unfold BT.layoutLoop
      repeat' first | with_reducible exact ih _ _ | with_reducible exact ih2 _ _ | still1
end
theorem fetchLayoutReport (cmp : Compare K) (τ : TreeId) (n : Nat) : Still (BT.fetchLayoutReport cmp τ n : M K V _) := by
  unfold BT.fetchLayoutReport
  repeat' first | with_reducible exact updateLayoutReport _ _ _ _ _ | still1
theorem dimLoop (cmp : Compare K) (τ : TreeId) : ∀ (n : Nat) (i : Id) (d : Dimensions), Still (BT.dimLoop cmp τ n i d : M K V _)
  | 0, _, _ => by unfold BT.dimLoop; still
  | n + 1, i, d => by
      have ih := dimLoop cmp τ n
      unfold BT.dimLoop
      dsimp only
      repeat' first | with_reducible exact ih _ _ | still1
theorem fetchDimensionsReport (cmp : Compare K) (τ : TreeId) (n : Nat) : Still (BT.fetchDimensionsReport cmp τ n : M K V _) := by
  unfold BT.fetchDimensionsReport
  repeat' first | with_reducible exact dimLoop _ _ _ _ _ | still1
theorem dumpFields (τ : TreeId) (d : Nat) (i : Id) : Still (BT.dumpFields τ d i : M K V _) := ⟨fun w => .refl w⟩
macro_rules | `(tactic| still1) => `(tactic| with_reducible exact Still.dumpFields _ _ _)
theorem dumpHead (c : Bool) : Still (BT.dumpHead c : M K V _) := ⟨fun w => .refl w⟩
macro_rules | `(tactic| still1) => `(tactic| with_reducible exact Still.dumpHead _)
theorem dumpLoop (cb : DumpCb K V) (d : Nat) (l : Bool) (i : Id) {f : Id → M K V (List (Line K V) × Option Err)} (hf : ∀ c, Still (f c)) :
    ∀ (a k : Nat), Still (BT.dumpLoop cb d l i f a k)
  | _, 0 => by unfold BT.dumpLoop; still
  | a, k + 1 => by
      have ih := dumpLoop cb d l i hf (a + 1) k
      unfold BT.dumpLoop
      repeat' first | with_reducible exact hf _ | still1
theorem dumpLeft (d : Nat) (n : NodeS K V) {f : Id → M K V (List (Line K V) × Option Err)} (hf : ∀ c, Still (f c)) : Still (BT.dumpLeft d n f) := by
  unfold BT.dumpLeft
  repeat' first | with_reducible exact hf _ | still1
theorem dumpNode (cmp : Compare K) (cb : DumpCb K V) (τ : TreeId) : ∀ (n d : Nat) (i : Id), Still (BT.dumpNode cmp cb τ n d i)
  | 0, _, _ => by unfold BT.dumpNode; still
  | n + 1, d, i => by
      have ih := dumpNode cmp cb τ n (d + 1)
      unfold BT.dumpNode
      repeat' first | with_reducible exact Still.dumpLeft _ _ ih | with_reducible exact Still.dumpLoop _ _ _ _ ih _ _ | still1
theorem dump (cmp : Compare K) (cb : DumpCb K V) (τ : TreeId) (n : Nat) : Still (BT.dump cmp cb τ n) := by
  unfold BT.dump
  repeat' first | with_reducible exact Still.dumpNode _ _ _ _ _ _ | still1
theorem purge (τ : TreeId) (n : Nat) (full : Bool) : Still (BT.purge τ n full : M K V _) := by unfold BT.purge; still
theorem touch (cmp : Compare K) (τ : TreeId) (n : Nat) : Still (BT.touch cmp τ n : M K V _) := by unfold BT.touch; still
theorem touchItem (cmp : Compare K) (τ : TreeId) (n k : Nat) : Still (BT.touchItem cmp τ n k : M K V _) := by unfold BT.touchItem; still
theorem updateLimits (a b : Nat) : Still (BT.updateLimits a b : M K V _) := ⟨fun _ => ⟨rfl, rfl, rfl, rfl, rfl, rfl, rfl, rfl⟩⟩
theorem newBPlusTree (τ : TreeId) (n : Nat) (c : Bool) : Still (BT.newBPlusTree τ n c : M K V _) := by unfold BT.newBPlusTree; still
theorem oldBPlusTree (cmp : Compare K) (τ : TreeId) (r : Ref) (c : Bool) : Still (BT.oldBPlusTree cmp τ r c : M K V _) := by unfold BT.oldBPlusTree; still
theorem drainerEvict (n : Nat) (i : Id) : Still (BT.drainerEvict n i : M K V _) := by
  refine ⟨fun w => ?_⟩
  unfold BT.drainerEvict
  split
  · exact .refl w
  · have := purgeNode (K := K) (V := V) (w.node i).tree true n i |>.run w
    split <;> simp_all

end Still

/-- Nothing that was stored has been changed or discarded; something may have been stored where nothing was. -/
structure Adds (w w' : World K V) : Prop where
  disk : ∀ r d, w.disk r = some d → w'.disk r = some d
  log : w'.log = w.log
  discards : w'.env.discards = w.env.discards
  getF : w'.env.getFails = w.env.getFails
  unpF : w'.env.unpackFails = w.env.unpackFails
  disF : w'.env.discardFails = w.env.discardFails

theorem Adds.trans {a b c : World K V} (h : Adds a b) (g : Adds b c) : Adds a c :=
  ⟨fun r d e => g.disk r d (h.disk r d e), g.log.trans h.log, g.discards.trans h.discards, g.getF.trans h.getF, g.unpF.trans h.unpF, g.disF.trans h.disF⟩
theorem Idle.adds {w w' : World K V} (h : Idle w w') : Adds w w' := ⟨fun r d e => by rw [h.disk, e], h.log, h.discards, h.getF, h.unpF, h.disF⟩

/-- In any state, the action leaves alone all that is stored. -/
structure Safe {α : Type} (m : M K V α) : Prop where
  run : ∀ w, Adds w (m w).2

theorem Still.safe {α : Type} {m : M K V α} (h : Still m) : Safe m := ⟨fun w => (h.run w).adds⟩

namespace Safe
variable {α β : Type}

theorem bind {m : M K V α} {f : α → M K V β} (h : Safe m) (g : ∀ a, Safe (f a)) : Safe (m >>= f) := by
  refine ⟨fun w => ?_⟩
  show Adds w (M.bind m f w).2
  have := h.run w
  unfold M.bind
  rcases hm : m w with ⟨_ | _ | _, w'⟩ <;> rw [hm] at this <;> simp only at this ⊢
  · exact this.trans ((g _).run _)
  · exact this
  · exact this

theorem putNode (d : DiskNode K V) (n : Nat) : Safe (BT.putNode d n) := by
  refine ⟨fun w => ?_⟩
  unfold BT.putNode
  dsimp only
  split
  · exact ⟨fun _ _ h => h, rfl, rfl, rfl, rfl, rfl⟩
  · split
    · exact ⟨fun _ _ h => h, rfl, rfl, rfl, rfl, rfl⟩
    · rename_i hn
      refine ⟨fun r d h => ?_, rfl, rfl, rfl, rfl, rfl⟩
      dsimp only
      rw [if_neg, h]
      rintro rfl
      rw [hn] at h
      cases h

end Safe

theorem Still.postLeafLoop (i : Id) : ∀ (a k : Nat), Still (BT.postLeafLoop i a k : M K V _)
  | _, 0 => by unfold BT.postLeafLoop; still
  | a, k + 1 => by
      have ih := postLeafLoop i (a + 1) k
      unfold BT.postLeafLoop
      still
theorem Still.postRef (l : Nat) (i : Id) : Still (BT.postRef l i : M K V _) := by unfold BT.postRef; still
macro_rules | `(tactic| still1) => `(tactic| with_reducible first | exact Still.postRef _ _ | exact Still.postLeafLoop _ _ _)
theorem Still.postInnerLoop (i : Id) : ∀ (a k : Nat), Still (BT.postInnerLoop i a k : M K V _)
  | _, 0 => by unfold BT.postInnerLoop; still
  | a, k + 1 => by
      have ih := postInnerLoop i (a + 1) k
      unfold BT.postInnerLoop
      still
macro_rules | `(tactic| still1) => `(tactic| with_reducible exact Still.postInnerLoop _ _ _)
theorem Still.postBody (i : Id) : Still (BT.postBody i : M K V _) := by unfold BT.postBody; still
macro_rules | `(tactic| still1) => `(tactic| with_reducible exact Still.postBody _)

syntax "safe1" : tactic
macro_rules | `(tactic| safe1) => `(tactic| (with_reducible refine Still.safe ?_; still; done))
macro_rules | `(tactic| safe1) => `(tactic| intro _)
macro_rules | `(tactic| safe1) => `(tactic| split)
macro_rules | `(tactic| safe1) => `(tactic| with_reducible first | exact Safe.putNode _ _ | apply Safe.bind)
macro "safe" : tactic => `(tactic| repeat' safe1)

namespace Safe

theorem postNode (size : DiskNode K V → Nat) (τ : TreeId) (i : Id) : Safe (BT.postNode size τ i) := by
  unfold BT.postNode
  safe
macro_rules | `(tactic| safe1) => `(tactic| with_reducible exact Safe.postNode _ _ _)
theorem forChildren (l : Nat) (i : Id) {f : Id → M K V Unit} (hf : ∀ c, Safe (f c)) : ∀ (a k : Nat), Safe (BT.forChildren l i f a k)
  | _, 0 => by unfold BT.forChildren; safe
  | a, k + 1 => by
      have ih := forChildren l i hf (a + 1) k
      unfold BT.forChildren
      repeat' first | with_reducible exact hf _ | with_reducible exact ih | safe1
theorem eachChild (l : Nat) (i : Id) {f : Id → M K V Unit} (hf : ∀ c, Safe (f c)) : Safe (BT.eachChild l i f) := by
  have := forChildren l i hf
  unfold BT.eachChild
  repeat' first | with_reducible exact hf _ | with_reducible exact this _ _ | safe1
theorem flushNode (size : DiskNode K V → Nat) (τ : TreeId) (p : Bool) : ∀ (n : Nat) (i : Id), Safe (BT.flushNode size τ p n i)
  | 0, _ => by unfold BT.flushNode; safe
  | n + 1, i => by
      have ih := flushNode size τ p n
      unfold BT.flushNode
      repeat' first | with_reducible exact Safe.eachChild _ _ ih | safe1

/-- Flush, in any state whatever, leaves alone all that is stored. -/
theorem flush (size : DiskNode K V → Nat) (τ : TreeId) (n : Nat) (p : Bool) : Safe (BT.flush size τ n p) := by
  unfold BT.flush
  repeat' first | with_reducible exact Safe.flushNode _ _ _ _ _ | safe1

end Safe

end SM.BT

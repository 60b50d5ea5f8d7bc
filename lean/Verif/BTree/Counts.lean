import Verif.BTree.Scene

/-! CacheHits and CacheMisses: every node fetched on the way to an item is counted as a miss, whatever the state. -/

namespace SM.BT

variable {K V : Type}

/-- As many misses were counted as GetNode calls were made, and no hit was taken back. -/
structure Tally (w w' : World K V) : Prop where
  hits : w.ctl.hits ≤ w'.ctl.hits
  misses : ∃ n, w'.env.gets = w.env.gets + n ∧ w'.ctl.misses = w.ctl.misses + n

/-- In any state in which map `τ` has a cache, the action counts right. -/
structure Counts (τ : TreeId) {α : Type} (m : M K V α) : Prop where
  run : ∀ w, (w.trees τ).cached = true → ((m w).2.trees τ).cached = true ∧ Tally w (m w).2

theorem Tally.refl (w : World K V) : Tally w w := ⟨Nat.le_refl _, 0, rfl, rfl⟩
theorem Tally.trans {a b c : World K V} (h : Tally a b) (g : Tally b c) : Tally a c := by
  obtain ⟨h1, n, h2, h3⟩ := h
  obtain ⟨g1, m, g2, g3⟩ := g
  exact ⟨Nat.le_trans h1 g1, n + m, by omega, by omega⟩

namespace Counts
variable {α β : Type} {T : TreeId}

theorem bind {m : M K V α} {f : α → M K V β} (h : Counts T m) (g : ∀ a, Counts T (f a)) : Counts T (m >>= f) := by
  refine ⟨fun w hw => ?_⟩
  show ((M.bind m f w).2.trees T).cached = true ∧ Tally w (M.bind m f w).2
  have := h.run w hw
  unfold M.bind
  rcases hm : m w with ⟨_ | _ | _, w'⟩ <;> rw [hm] at this <;> simp only at this ⊢
  · rename_i a
    have h2 := (g a).run w' this.1
    exact ⟨h2.1, this.2.trans h2.2⟩
  · exact this
  · exact this

/-- Nothing that matters here. -/
theorem of {m : M K V α} (h : ∀ w, (m w).2.ctl = w.ctl ∧ (m w).2.env.gets = w.env.gets ∧ ((m w).2.trees T).cached = (w.trees T).cached) : Counts T m :=
  ⟨fun w hw => ⟨by rw [(h w).2.2, hw], by rw [(h w).1], 0, (h w).2.1, by rw [(h w).1]; rfl⟩⟩

theorem pure (a : α) : Counts T (Pure.pure a : M K V α) := of fun _ => ⟨rfl, rfl, rfl⟩
theorem throw (e : Err) : Counts T (M.throw e : M K V α) := of fun _ => ⟨rfl, rfl, rfl⟩
theorem fatal : Counts T (M.fatal : M K V α) := of fun _ => ⟨rfl, rfl, rfl⟩
theorem attempt {m : M K V α} (h : Counts T m) : Counts T (M.attempt m) := by
  refine ⟨fun w hw => ?_⟩
  have := h.run w hw
  unfold M.attempt
  rcases hm : m w with ⟨_ | _ | _, w'⟩ <;> rw [hm] at this <;> exact this
theorem deref (a : Option α) : Counts T (M.deref a : M K V α) := by cases a <;> exact of fun _ => ⟨rfl, rfl, rfl⟩
theorem must (n : Nat) (a : Option α) : Counts T (M.must n a : M K V α) := by cases a <;> exact of fun _ => ⟨rfl, rfl, rfl⟩
theorem check (n : Nat) (b : Bool) : Counts T (M.check n b : M K V Unit) := by cases b <;> exact of fun _ => ⟨rfl, rfl, rfl⟩
theorem getN (i : Id) : Counts T (BT.getN i : M K V _) := of fun _ => ⟨rfl, rfl, rfl⟩
theorem getP (i : Id) : Counts T (BT.getP i : M K V _) := of fun _ => ⟨rfl, rfl, rfl⟩
theorem getT (i : TreeId) : Counts T (BT.getT i : M K V _) := of fun _ => ⟨rfl, rfl, rfl⟩
theorem modN (i : Id) (f : NodeS K V → NodeS K V) : Counts T (BT.modN i f) := of fun _ => ⟨rfl, rfl, rfl⟩
theorem modP (i : Id) (f : PSum → PSum) : Counts T (BT.modP i f : M K V Unit) := of fun _ => ⟨rfl, rfl, rfl⟩
theorem modT (i : TreeId) (f : TreeS → TreeS) (h : ∀ t, (f t).cached = t.cached) : Counts T (BT.modT i f : M K V Unit) :=
  of fun w => ⟨rfl, rfl, by
    simp only [BT.modT, upd]
    split
    · rename_i e; subst e; exact h _
    · rfl⟩
theorem alloc (n : NodeS K V) : Counts T (BT.alloc n) := of fun _ => ⟨rfl, rfl, rfl⟩
theorem onLru (τ : TreeId) (f : LruS → Option LruS) : Counts T (BT.onLru τ f : M K V Unit) := by
  refine of fun w => ?_
  unfold BT.onLru
  split
  · split <;> exact ⟨rfl, rfl, rfl⟩
  · exact ⟨rfl, rfl, rfl⟩
theorem onCtl (τ : TreeId) {f : Ctl → Ctl} (h : ∀ c, c.hits ≤ (f c).hits ∧ (f c).misses = c.misses) : Counts T (BT.onCtl τ f : M K V Unit) := by
  refine ⟨fun w hw => ?_⟩
  unfold BT.onCtl
  split
  · exact ⟨hw, (h _).1, 0, rfl, (h _).2⟩
  · exact ⟨hw, .refl w⟩
theorem startDrainer (τ : TreeId) : Counts T (BT.startDrainer τ : M K V Unit) :=
  ⟨fun w hw => (onCtl (K := K) (V := V) τ (fun c => by split <;> exact ⟨Nat.le_refl _, rfl⟩)).run w hw⟩
theorem incCacheHits (τ : TreeId) : Counts T (BT.incCacheHits τ : M K V _) := onCtl τ fun _ => ⟨Nat.le_succ _, rfl⟩
theorem unpack : Counts T (BT.unpack : M K V _) := by
  refine of fun w => ?_
  unfold BT.unpack
  dsimp only
  split <;> exact ⟨rfl, rfl, rfl⟩
theorem pack : Counts T (BT.pack : M K V _) := by
  refine of fun w => ?_
  unfold BT.pack
  dsimp only
  split <;> exact ⟨rfl, rfl, rfl⟩
theorem putNode (d : DiskNode K V) (n : Nat) : Counts T (BT.putNode d n) := by
  refine of fun w => ?_
  unfold BT.putNode
  dsimp only
  split
  · exact ⟨rfl, rfl, rfl⟩
  · split <;> exact ⟨rfl, rfl, rfl⟩
theorem discardDisk (r : Ref) : Counts T (BT.discardDisk r : M K V _) := by
  refine of fun w => ?_
  unfold BT.discardDisk
  dsimp only
  split
  · exact ⟨rfl, rfl, rfl⟩
  · split <;> exact ⟨rfl, rfl, rfl⟩

end Counts

/-- One step of a proof of `Counts`; each function adds itself below. -/
syntax "counts1" : tactic
macro_rules | `(tactic| counts1) => `(tactic| dsimp only)
macro_rules | `(tactic| counts1) => `(tactic| with_reducible assumption)
macro_rules | `(tactic| counts1) => `(tactic| intro _)
macro_rules | `(tactic| counts1) => `(tactic| split)
macro_rules | `(tactic| counts1) => `(tactic| with_reducible apply Counts.bind)
macro_rules | `(tactic| counts1) => `(tactic| with_reducible apply Counts.attempt)
macro_rules | `(tactic| counts1) => `(tactic| with_reducible first | exact Counts.pure _ | exact Counts.throw _ | exact Counts.fatal | exact Counts.deref _ | exact Counts.must _ _ | exact Counts.check _ _ | exact Counts.getN _ | exact Counts.getP _ | exact Counts.getT _ | exact Counts.modN _ _ | exact Counts.modP _ _ | exact Counts.modT _ _ (fun _ => rfl) | exact Counts.alloc _ | exact Counts.onLru _ _ | exact Counts.startDrainer _ | exact Counts.incCacheHits _ | exact Counts.unpack | exact Counts.pack | exact Counts.putNode _ _ | exact Counts.discardDisk _)
macro "counts" : tactic => `(tactic| repeat' counts1)

namespace Counts
variable {T : TreeId}

theorem rootOf (τ : TreeId) : Counts τ (BT.rootOf τ : M K V Id) := by unfold BT.rootOf; counts
macro_rules | `(tactic| counts1) => `(tactic| with_reducible exact Counts.rootOf _)
theorem kvOf (i : Id) : Counts T (BT.kvOf i : M K V _) := by unfold BT.kvOf; counts
macro_rules | `(tactic| counts1) => `(tactic| with_reducible exact Counts.kvOf _)
theorem setKv (i : Id) (t : LLRB.Tree K (Val V)) : Counts T (BT.setKv i t) := by unfold BT.setKv; counts
macro_rules | `(tactic| counts1) => `(tactic| with_reducible exact Counts.setKv _ _)
theorem kvLen (i : Id) : Counts T (BT.kvLen i : M K V _) := by unfold BT.kvLen; counts
macro_rules | `(tactic| counts1) => `(tactic| with_reducible exact Counts.kvLen _)
theorem kvGetByIndex (i : Id) (n : Int) : Counts T (BT.kvGetByIndex i n : M K V _) := by unfold BT.kvGetByIndex; counts
macro_rules | `(tactic| counts1) => `(tactic| with_reducible exact Counts.kvGetByIndex _ _)
theorem kvFinish (i : Id) (r : Option ((Bool × Option Err) × LLRB.Tree K (Val V))) : Counts T (BT.kvFinish i r) := by unfold BT.kvFinish; counts
macro_rules | `(tactic| counts1) => `(tactic| with_reducible exact Counts.kvFinish _ _)
theorem kvPut (cmp : Compare K) (i : Id) (k : K) (v : Val V) : Counts T (BT.kvPut cmp i k v) := by unfold BT.kvPut; counts
macro_rules | `(tactic| counts1) => `(tactic| with_reducible exact Counts.kvPut _ _ _ _)
theorem kvPutIgnore (cmp : Compare K) (i : Id) (k : K) (v : Val V) : Counts T (BT.kvPutIgnore cmp i k v) := by unfold BT.kvPutIgnore; counts
macro_rules | `(tactic| counts1) => `(tactic| with_reducible exact Counts.kvPutIgnore _ _ _ _)
theorem kvDeleteByIndex (cmp : Compare K) (i : Id) (n : Int) : Counts T (BT.kvDeleteByIndex cmp i n : M K V _) := by unfold BT.kvDeleteByIndex; counts
macro_rules | `(tactic| counts1) => `(tactic| with_reducible exact Counts.kvDeleteByIndex _ _ _)
theorem liftBisect (r : Option (Int × Bool × Option Err)) : Counts T (BT.liftBisect r : M K V _) := by unfold BT.liftBisect; counts
macro_rules | `(tactic| counts1) => `(tactic| with_reducible exact Counts.liftBisect _)
theorem asNode (v : Val V) : Counts T (BT.asNode v : M K V _) := by unfold BT.asNode; counts
macro_rules | `(tactic| counts1) => `(tactic| with_reducible exact Counts.asNode _)
theorem asItem (v : Val V) : Counts T (BT.asItem v : M K V _) := by unfold BT.asItem; counts
macro_rules | `(tactic| counts1) => `(tactic| with_reducible exact Counts.asItem _)
theorem kvChild (i : Id) (n : Int) : Counts T (BT.kvChild i n : M K V _) := by unfold BT.kvChild; counts
macro_rules | `(tactic| counts1) => `(tactic| with_reducible exact Counts.kvChild _ _)
theorem kvChildOk (l : Nat) (i : Id) (n : Int) : Counts T (BT.kvChildOk l i n : M K V _) := by unfold BT.kvChildOk; counts
macro_rules | `(tactic| counts1) => `(tactic| with_reducible exact Counts.kvChildOk _ _ _)
theorem initNodeAsEvicted (τ : TreeId) (i : Id) : Counts τ (BT.initNodeAsEvicted τ i : M K V _) := by unfold BT.initNodeAsEvicted; counts
theorem markNodeUsed (τ : TreeId) (i : Id) : Counts τ (BT.markNodeUsed τ i : M K V _) := by unfold BT.markNodeUsed; counts
theorem markNodeClean (τ : TreeId) (i : Id) : Counts τ (BT.markNodeClean τ i : M K V _) := by unfold BT.markNodeClean; counts
theorem placeStale (τ : TreeId) (i : Id) : Counts τ (BT.placeStale τ i : M K V _) := by unfold BT.placeStale; counts
macro_rules | `(tactic| counts1) => `(tactic| with_reducible exact Counts.placeStale _ _)
theorem markNodeDirty (τ : TreeId) (i : Id) : Counts τ (BT.markNodeDirty τ i : M K V _) := by unfold BT.markNodeDirty; counts
theorem markNodeEvicted (τ : TreeId) (i : Id) : Counts τ (BT.markNodeEvicted τ i : M K V _) := by unfold BT.markNodeEvicted; counts
theorem markNodeToBeDiscarded (τ : TreeId) (i : Id) : Counts τ (BT.markNodeToBeDiscarded τ i : M K V _) := by unfold BT.markNodeToBeDiscarded; counts
macro_rules | `(tactic| counts1) => `(tactic| with_reducible first | exact Counts.initNodeAsEvicted _ _ | exact Counts.markNodeUsed _ _ | exact Counts.markNodeClean _ _ | exact Counts.markNodeDirty _ _ | exact Counts.markNodeEvicted _ _ | exact Counts.markNodeToBeDiscarded _ _)

theorem arrangeRec : ∀ (n : Nat) (l : List Id), Counts T (BT.arrangeRec n l : M K V _)
  | 0, _ => by unfold BT.arrangeRec; counts
  | n + 1, l => by
      have ih := arrangeRec n
      unfold BT.arrangeRec
      repeat' first | with_reducible exact ih _ | counts1
macro_rules | `(tactic| counts1) => `(tactic| with_reducible exact Counts.arrangeRec _ _)
theorem resetPs (c : Id) (n : Int) : Counts T (BT.resetPs c n : M K V _) := by unfold BT.resetPs; counts
macro_rules | `(tactic| counts1) => `(tactic| with_reducible exact Counts.resetPs _ _)
theorem arrangeLoop (node : Id) : ∀ (i k : Nat), Counts T (BT.arrangeLoop node i k : M K V _)
  | _, 0 => by unfold BT.arrangeLoop; counts
  | i, k + 1 => by
      have ih := arrangeLoop node (i + 1) k
      unfold BT.arrangeLoop
      counts
macro_rules | `(tactic| counts1) => `(tactic| with_reducible exact Counts.arrangeLoop _ _ _)
theorem arrangePrefixSumTree (i : Id) : Counts T (BT.arrangePrefixSumTree i : M K V _) := by unfold BT.arrangePrefixSumTree; counts
macro_rules | `(tactic| counts1) => `(tactic| with_reducible exact Counts.arrangePrefixSumTree _)
theorem arrangeIgnore (i : Id) : Counts T (BT.arrangeIgnore i : M K V _) := by unfold BT.arrangeIgnore; counts
macro_rules | `(tactic| counts1) => `(tactic| with_reducible exact Counts.arrangeIgnore _)
theorem rearrange (τ : TreeId) : ∀ (n : Nat) (i : Id), Counts τ (BT.rearrangePrefixSumTreeToRoot τ n i : M K V _)
  | 0, _ => by unfold BT.rearrangePrefixSumTreeToRoot; counts
  | n + 1, i => by
      have ih := rearrange τ n
      unfold BT.rearrangePrefixSumTreeToRoot
      repeat' first | with_reducible exact ih _ | counts1
macro_rules | `(tactic| counts1) => `(tactic| with_reducible exact Counts.rearrange _ _ _)
theorem updatePsUp (δ : Int) : ∀ (n : Nat) (i : Id), Counts T (BT.updatePsUp δ n i : M K V _)
  | 0, _ => by unfold BT.updatePsUp; counts
  | n + 1, i => by
      have ih := updatePsUp δ n
      unfold BT.updatePsUp
      repeat' first | with_reducible exact ih _ | counts1
macro_rules | `(tactic| counts1) => `(tactic| with_reducible exact Counts.updatePsUp _ _ _)
theorem updateRec (τ : TreeId) (δ : Int) : ∀ (n : Nat) (i : Id), Counts τ (BT.updateRec τ δ n i : M K V _)
  | 0, _ => by unfold BT.updateRec; counts
  | n + 1, i => by
      have ih := updateRec τ δ n
      unfold BT.updateRec
      repeat' first | with_reducible exact ih _ | counts1
macro_rules | `(tactic| counts1) => `(tactic| with_reducible exact Counts.updateRec _ _ _ _)
theorem update (τ : TreeId) (n : Nat) (i : Id) : Counts τ (BT.updatePrefixSumTreeLeafToRoot τ n i : M K V _) := by
  unfold BT.updatePrefixSumTreeLeafToRoot; counts
macro_rules | `(tactic| counts1) => `(tactic| with_reducible exact Counts.update _ _ _)
theorem touchUp (τ : TreeId) : ∀ (n : Nat) (i : Id), Counts τ (BT.touchLoadedNodeToRoot τ n i : M K V _)
  | 0, _ => by unfold BT.touchLoadedNodeToRoot; counts
  | n + 1, i => by
      have ih := touchUp τ n
      unfold BT.touchLoadedNodeToRoot
      repeat' first | with_reducible exact ih _ | counts1
macro_rules | `(tactic| counts1) => `(tactic| with_reducible exact Counts.touchUp _ _ _)

theorem loadLeafLoop (cmp : Compare K) (i : Id) : ∀ l : List (K × V), Counts T (BT.loadLeafLoop cmp i l)
  | [] => by unfold BT.loadLeafLoop; counts
  | (k, v) :: l => by
      have ih := loadLeafLoop cmp i l
      unfold BT.loadLeafLoop
      counts
macro_rules | `(tactic| counts1) => `(tactic| with_reducible exact Counts.loadLeafLoop _ _ _)
theorem loadInnerLoop (cmp : Compare K) (τ : TreeId) (i : Id) : ∀ l, Counts τ (BT.loadInnerLoop cmp τ i l : M K V _)
  | [] => by unfold BT.loadInnerLoop; counts
  | (k, v) :: l => by
      have ih := loadInnerLoop cmp τ i l
      unfold BT.loadInnerLoop
      counts
macro_rules | `(tactic| counts1) => `(tactic| with_reducible exact Counts.loadInnerLoop _ _ _ _)
theorem loadBody (cmp : Compare K) (τ : TreeId) (i : Id) (b : DiskBody K V) : Counts τ (BT.loadBody cmp τ i b) := by cases b <;> (unfold BT.loadBody; counts)
macro_rules | `(tactic| counts1) => `(tactic| with_reducible exact Counts.loadBody _ _ _ _)
theorem loadMax (τ : TreeId) (d : DiskNode K V) : Counts τ (BT.loadMax τ d) := by unfold BT.loadMax; counts
macro_rules | `(tactic| counts1) => `(tactic| with_reducible exact Counts.loadMax _ _)
theorem evict (τ : TreeId) (i : Id) : Counts τ (BT.evict τ i : M K V _) := by unfold BT.evict; counts
macro_rules | `(tactic| counts1) => `(tactic| with_reducible exact Counts.evict _ _)
theorem forChildren (l : Nat) (i : Id) {f : Id → M K V Unit} (hf : ∀ c, Counts T (f c)) : ∀ (a k : Nat), Counts T (BT.forChildren l i f a k)
  | _, 0 => by unfold BT.forChildren; counts
  | a, k + 1 => by
      have ih := forChildren l i hf (a + 1) k
      unfold BT.forChildren
      repeat' first | with_reducible exact hf _ | counts1
theorem eachChild (l : Nat) (i : Id) {f : Id → M K V Unit} (hf : ∀ c, Counts T (f c)) : Counts T (BT.eachChild l i f) := by
  have := forChildren l i hf
  unfold BT.eachChild
  repeat' first | with_reducible exact hf _ | with_reducible exact this _ _ | counts1
macro_rules | `(tactic| counts1) => `(tactic| with_reducible apply Counts.eachChild)
theorem purgeNode (τ : TreeId) (full : Bool) : ∀ (n : Nat) (i : Id), Counts τ (BT.purgeNode τ full n i : M K V _)
  | 0, _ => by unfold BT.purgeNode; counts
  | n + 1, i => by
      have ih := purgeNode τ full n
      unfold BT.purgeNode
      repeat' first | with_reducible exact ih _ | counts1
macro_rules | `(tactic| counts1) => `(tactic| with_reducible exact Counts.purgeNode _ _ _ _)
/-- btree.go:119-128 and alike: a miss is counted, and GetNode is called once. -/
theorem missed (cmp : Compare K) (τ : TreeId) (i : Id) : Counts τ (do BT.incCacheMisses τ; BT.loadNode cmp τ i : M K V Unit) := by
  have hrest : ∀ d : DiskNode K V, Counts τ (do
      BT.modN i fun n => { n with kv := some .nil }
      BT.unpack
      BT.modN i fun n => { n with items := d.items, root := d.root, leaf := d.body.isLeaf }
      BT.loadMax τ d
      BT.loadBody cmp τ i d.body
      BT.modN i fun n => { n with loaded := true }
      BT.markNodeClean τ i) := fun d => by counts
  refine ⟨fun w hw => ?_⟩
  set w1 : World K V := { w with ctl := { w.ctl with misses := w.ctl.misses + 1 } } with e1
  have h1 : BT.incCacheMisses τ w = (.ok (), w1) := by unfold BT.incCacheMisses BT.onCtl; rw [if_pos hw]
  set w2 : World K V := { w1 with env := { w.env with gets := w.env.gets + 1 } } with e2
  have t2 : (w2.trees τ).cached = true ∧ Tally w w2 := ⟨hw, Nat.le_refl _, 1, rfl, rfl⟩
  have h3 : (∃ e, BT.getNode (w1.node i).ref w1 = (.err e, w2)) ∨ ∃ d, BT.getNode (w1.node i).ref w1 = (.ok d, w2) := by
    unfold BT.getNode
    dsimp only
    split
    · exact .inl ⟨_, rfl⟩
    · split
      · exact .inr ⟨_, rfl⟩
      · exact .inl ⟨_, rfl⟩
  have h4 : ∀ f : Unit → M K V Unit, (BT.incCacheMisses τ >>= f : M K V Unit) w = f () w1 := fun f => by
    show M.bind _ _ w = _
    rw [M.bind, h1]
  have h5 : (BT.incCacheMisses τ >>= fun _ => BT.loadNode cmp τ i : M K V Unit) w = M.bind (BT.getNode (w1.node i).ref) (fun d => (do
      BT.modN i fun n => { n with kv := some .nil }
      BT.unpack
      BT.modN i fun n => { n with items := d.items, root := d.root, leaf := d.body.isLeaf }
      BT.loadMax τ d
      BT.loadBody cmp τ i d.body
      BT.modN i fun n => { n with loaded := true }
      BT.markNodeClean τ i)) w1 := by
    rw [h4]
    rfl
  rw [h5]
  rcases h3 with ⟨e, h3⟩ | ⟨d, h3⟩
  · rw [M.bind, h3]
    exact t2
  · rw [M.bind, h3]
    have := (hrest d).run w2 t2.1
    exact ⟨this.1, t2.2.trans this.2⟩
theorem visit (cmp : Compare K) (τ : TreeId) (m : Bool) (i : Id) : Counts τ (BT.visit cmp τ m i : M K V _) := by
  unfold BT.visit
  refine bind (getN i) fun n => ?_
  split
  · counts
  · exact missed cmp τ i
macro_rules | `(tactic| counts1) => `(tactic| with_reducible exact Counts.visit _ _ _ _)
theorem touchNode (cmp : Compare K) (τ : TreeId) : ∀ (n : Nat) (i : Id), Counts τ (BT.touchNode cmp τ n i : M K V _)
  | 0, _ => by unfold BT.touchNode; counts
  | n + 1, i => by
      have ih := touchNode cmp τ n
      unfold BT.touchNode
      repeat' first | with_reducible exact ih _ | counts1
macro_rules | `(tactic| counts1) => `(tactic| with_reducible exact Counts.touchNode _ _ _ _)
theorem discardNode (cmp : Compare K) (τ : TreeId) : ∀ (n : Nat) (i : Id), Counts τ (BT.discardNode cmp τ n i : M K V _)
  | 0, _ => by unfold BT.discardNode; counts
  | n + 1, i => by
      have ih := discardNode cmp τ n
      unfold BT.discardNode
      repeat' first | with_reducible exact ih _ | counts1
macro_rules | `(tactic| counts1) => `(tactic| with_reducible exact Counts.discardNode _ _ _ _)

theorem childFor (cmp : Compare K) (i : Id) (k : K) : Counts T (BT.childFor cmp i k : M K V _) := by unfold BT.childFor; counts
macro_rules | `(tactic| counts1) => `(tactic| with_reducible exact Counts.childFor _ _ _)
theorem psFind : ∀ (n : Nat) (i : Id) (m : Nat), Counts T (BT.psFind n i m : M K V _)
  | 0, _, _ => by unfold BT.psFind; counts
  | n + 1, i, m => by
      have ih := psFind n
      unfold BT.psFind
      repeat' first | with_reducible exact ih _ _ | counts1
macro_rules | `(tactic| counts1) => `(tactic| with_reducible exact Counts.psFind _ _ _)
theorem leftSum (i : Id) : Counts T (BT.leftSum i : M K V _) := by unfold BT.leftSum; counts
macro_rules | `(tactic| counts1) => `(tactic| with_reducible exact Counts.leftSum _)
theorem psClimb : ∀ (n : Nat) (i : Id) (s : List Bool), Counts T (BT.psClimb n i s : M K V _)
  | 0, _, _ => by unfold BT.psClimb; counts
  | n + 1, i, m => by
      have ih := psClimb n
      unfold BT.psClimb
      repeat' first | with_reducible exact ih _ _ | counts1
macro_rules | `(tactic| counts1) => `(tactic| with_reducible exact Counts.psClimb _ _ _)
theorem psDescend : ∀ (s : List Bool) (i : Id) (n : Nat), Counts T (BT.psDescend s i n : M K V _)
  | [], _, _ => by unfold BT.psDescend; counts
  | true :: s, i, m => by
      have ih := psDescend s
      unfold BT.psDescend
      repeat' first | with_reducible exact ih _ _ | counts1
  | false :: s, i, m => by
      have ih := psDescend s
      unfold BT.psDescend
      repeat' first | with_reducible exact ih _ _ | counts1
macro_rules | `(tactic| counts1) => `(tactic| with_reducible exact Counts.psDescend _ _ _)
theorem psDelta (n : Nat) (i c : Id) (m : Nat) : Counts T (BT.psDelta n i c m : M K V _) := by unfold BT.psDelta; counts
macro_rules | `(tactic| counts1) => `(tactic| with_reducible exact Counts.psDelta _ _ _ _)
theorem bisectLoop (cmp : Compare K) (τ : TreeId) (f : LLRB.Tree K (Val V) → Option (Int × Bool × Option Err)) (k : K) :
    ∀ (n : Nat) (i : Id) (m : Nat), Counts τ (BT.bisectLoop cmp τ f k n i m)
  | 0, _, _ => by unfold BT.bisectLoop; counts
  | n + 1, i, m => by
      have ih := bisectLoop cmp τ f k n
      unfold BT.bisectLoop
      repeat' first | with_reducible exact ih _ _ | counts1
macro_rules | `(tactic| counts1) => `(tactic| with_reducible exact Counts.bisectLoop _ _ _ _ _ _ _)
theorem indexDescend (cmp : Compare K) (τ : TreeId) (mk : Bool) : ∀ (n : Nat) (i : Id) (m : Nat) (s : List Int), Counts τ (BT.indexDescend cmp τ mk n i m s : M K V _)
  | 0, _, _, _ => by unfold BT.indexDescend; counts
  | n + 1, i, m, s => by
      have ih := indexDescend cmp τ mk n
      unfold BT.indexDescend
      repeat' first | with_reducible exact ih _ _ _ | counts1
macro_rules | `(tactic| counts1) => `(tactic| with_reducible exact Counts.indexDescend _ _ _ _ _ _ _)
theorem keyDescend (cmp : Compare K) (τ : TreeId) (mk : Bool) (k : K) : ∀ (n : Nat) (i : Id) (s : List Int), Counts τ (BT.keyDescend cmp τ mk k n i s : M K V _)
  | 0, _, _ => by unfold BT.keyDescend; counts
  | n + 1, i, s => by
      have ih := keyDescend cmp τ mk k n
      unfold BT.keyDescend
      repeat' first | with_reducible exact ih _ _ | counts1
macro_rules | `(tactic| counts1) => `(tactic| with_reducible exact Counts.keyDescend _ _ _ _ _ _ _)

theorem splitLoop (cmp : Compare K) (mn : Nat) (lf : Bool) (a b : Id) : ∀ n, Counts T (BT.splitLoop cmp mn lf a b n : M K V _)
  | 0 => by unfold BT.splitLoop; counts
  | n + 1 => by
      have ih := splitLoop cmp mn lf a b n
      unfold BT.splitLoop
      counts
macro_rules | `(tactic| counts1) => `(tactic| with_reducible exact Counts.splitLoop _ _ _ _ _ _)
theorem growRoot (cmp : Compare K) (τ : TreeId) (a b : Id) (k : K) : Counts τ (BT.growRoot cmp τ a b k : M K V _) := by unfold BT.growRoot; counts
macro_rules | `(tactic| counts1) => `(tactic| with_reducible exact Counts.growRoot _ _ _ _ _)
theorem splitNode (cmp : Compare K) (τ : TreeId) (a : Id) (n : Nat) : Counts τ (BT.splitNode cmp τ a n : M K V _) := by unfold BT.splitNode; counts
macro_rules | `(tactic| counts1) => `(tactic| with_reducible exact Counts.splitNode _ _ _ _)
theorem insertHere (cmp : Compare K) (τ : TreeId) (big : Nat) : ∀ (n : Nat) (i : Id) (k : K) (v : Val V), Counts τ (BT.insertHere cmp τ big n i k v)
  | 0, _, _, _ => by unfold BT.insertHere; counts
  | n + 1, i, k, v => by
      have ih := insertHere cmp τ big n
      unfold BT.insertHere
      repeat' first | with_reducible exact ih _ _ _ | counts1
macro_rules | `(tactic| counts1) => `(tactic| with_reducible exact Counts.insertHere _ _ _ _ _ _ _)

theorem borrowLeftLeaf (cmp : Compare K) (a b c : Id) (m n : Int) : Counts T (BT.borrowLeftLeaf cmp a b c m n : M K V _) := by unfold BT.borrowLeftLeaf; counts
macro_rules | `(tactic| counts1) => `(tactic| with_reducible exact Counts.borrowLeftLeaf _ _ _ _ _ _)
theorem borrowLeftInner (cmp : Compare K) (a b c : Id) (m n : Int) : Counts T (BT.borrowLeftInner cmp a b c m n : M K V _) := by unfold BT.borrowLeftInner; counts
macro_rules | `(tactic| counts1) => `(tactic| with_reducible exact Counts.borrowLeftInner _ _ _ _ _ _)
theorem borrowLeft (cmp : Compare K) (τ : TreeId) (a b c : Id) (m n : Int) : Counts τ (BT.borrowLeft cmp τ a b c m n : M K V _) := by unfold BT.borrowLeft; counts
macro_rules | `(tactic| counts1) => `(tactic| with_reducible exact Counts.borrowLeft _ _ _ _ _ _ _)
theorem borrowRightLeaf (cmp : Compare K) (a b c : Id) (m : Int) : Counts T (BT.borrowRightLeaf cmp a b c m : M K V _) := by unfold BT.borrowRightLeaf; counts
macro_rules | `(tactic| counts1) => `(tactic| with_reducible exact Counts.borrowRightLeaf _ _ _ _ _)
theorem borrowRightInner (cmp : Compare K) (a b c : Id) (m : Int) : Counts T (BT.borrowRightInner cmp a b c m : M K V _) := by unfold BT.borrowRightInner; counts
macro_rules | `(tactic| counts1) => `(tactic| with_reducible exact Counts.borrowRightInner _ _ _ _ _)
theorem borrowRight (cmp : Compare K) (τ : TreeId) (a b c : Id) (m : Int) : Counts τ (BT.borrowRight cmp τ a b c m : M K V _) := by unfold BT.borrowRight; counts
macro_rules | `(tactic| counts1) => `(tactic| with_reducible exact Counts.borrowRight _ _ _ _ _ _)
theorem reparent (v : Val V) (i : Id) : Counts T (BT.reparent v i : M K V _) := by unfold BT.reparent; counts
macro_rules | `(tactic| counts1) => `(tactic| with_reducible exact Counts.reparent _ _)
theorem mergeLoop (cmp : Compare K) (a b : Id) : ∀ (i k : Nat), Counts T (BT.mergeLoop cmp a b i k : M K V _)
  | _, 0 => by unfold BT.mergeLoop; counts
  | i, k + 1 => by
      have ih := mergeLoop cmp a b (i + 1) k
      unfold BT.mergeLoop
      counts
macro_rules | `(tactic| counts1) => `(tactic| with_reducible exact Counts.mergeLoop _ _ _ _ _)
theorem mergeInto (cmp : Compare K) (a b c : Id) (n : Int) (lf ch : Bool) : Counts T (BT.mergeInto cmp a b c n lf ch : M K V _) := by unfold BT.mergeInto; counts
macro_rules | `(tactic| counts1) => `(tactic| with_reducible exact Counts.mergeInto _ _ _ _ _ _ _)
theorem shrinkRoot (τ : TreeId) (a : Id) : Counts τ (BT.shrinkRoot τ a : M K V _) := by unfold BT.shrinkRoot; counts
macro_rules | `(tactic| counts1) => `(tactic| with_reducible exact Counts.shrinkRoot _ _)
theorem dropSep (cmp : Compare K) (a b : Id) (n : Int) : Counts T (BT.dropSep cmp a b n : M K V _) := by unfold BT.dropSep; counts
macro_rules | `(tactic| counts1) => `(tactic| with_reducible exact Counts.dropSep _ _ _ _)
theorem merge (cmp : Compare K) (τ : TreeId) {m : M K V Unit} (hm : Counts τ m) (a b c : Id) (n : Int) (lf ch : Bool) : Counts τ (BT.merge cmp τ m a b c n lf ch) := by
  unfold BT.merge; counts
theorem leftSibling (a : Id) (n : Int) : Counts T (BT.leftSibling a n : M K V _) := by unfold BT.leftSibling; counts
macro_rules | `(tactic| counts1) => `(tactic| with_reducible exact Counts.leftSibling _ _)
theorem rightSibling (a : Id) (n : Int) : Counts T (BT.rightSibling a n : M K V _) := by unfold BT.rightSibling; counts
macro_rules | `(tactic| counts1) => `(tactic| with_reducible exact Counts.rightSibling _ _)
theorem canLend (cmp : Compare K) (τ : TreeId) (a : Option Id) : Counts τ (BT.canLend cmp τ a : M K V _) := by unfold BT.canLend; counts
macro_rules | `(tactic| counts1) => `(tactic| with_reducible exact Counts.canLend _ _ _)
theorem rebalanceHere (cmp : Compare K) (τ : TreeId) : ∀ (n : Nat) (i : Id) (s : List Int), Counts τ (BT.rebalanceHere cmp τ n i s : M K V _)
  | 0, _, _ => by unfold BT.rebalanceHere; counts
  | n + 1, i, s => by
      have ih := rebalanceHere cmp τ n
      unfold BT.rebalanceHere
      repeat' first | with_reducible exact ih _ _ | with_reducible apply Counts.merge | counts1
macro_rules | `(tactic| counts1) => `(tactic| with_reducible exact Counts.rebalanceHere _ _ _ _ _)
theorem withErr {α : Type} (a : α) {m : M K V Unit} (hm : Counts T m) : Counts T (BT.withErr a m) := by unfold BT.withErr; counts
macro_rules | `(tactic| counts1) => `(tactic| with_reducible apply Counts.withErr)
theorem outOfRange (τ : TreeId) (i : Int) : Counts τ (BT.outOfRange τ i : M K V _) := by unfold BT.outOfRange; counts
macro_rules | `(tactic| counts1) => `(tactic| with_reducible exact Counts.outOfRange _ _)
theorem afterDelete (cmp : Compare K) (τ : TreeId) (n : Nat) (i : Id) (s : List Int) : Counts τ (BT.afterDelete cmp τ n i s : M K V _) := by unfold BT.afterDelete; counts
macro_rules | `(tactic| counts1) => `(tactic| with_reducible exact Counts.afterDelete _ _ _ _ _)

/-- Every operation of the SortedMap interface but Validate. -/
theorem step (cmp : Compare K) (τ : TreeId) (n : Nat) (op : Spec.Op K V) (h : op ≠ .validate) : Counts τ (BT.step cmp τ n op) := by
  cases op <;> simp only [BT.step, BT.put, BT.getByKey, BT.getByIndex, BT.patchByKey, BT.patchByIndex, BT.deleteByKey, BT.deleteByIndex, BT.bisectLeft,
    BT.bisectRight, BT.len] <;> first | exact absurd rfl h | counts

theorem fetchLocation (τ : TreeId) : Counts τ (BT.fetchLocation τ : M K V _) := by unfold BT.fetchLocation; counts
macro_rules | `(tactic| counts1) => `(tactic| with_reducible exact Counts.fetchLocation _)
theorem dimLoop (cmp : Compare K) (τ : TreeId) : ∀ (n : Nat) (i : Id) (d : Dimensions), Counts τ (BT.dimLoop cmp τ n i d : M K V _)
  | 0, _, _ => by unfold BT.dimLoop; counts
  | n + 1, i, d => by
      have ih := dimLoop cmp τ n
      unfold BT.dimLoop
      dsimp only
      repeat' first | with_reducible exact ih _ _ | counts1
theorem fetchDimensionsReport (cmp : Compare K) (τ : TreeId) (n : Nat) : Counts τ (BT.fetchDimensionsReport cmp τ n : M K V _) := by
  unfold BT.fetchDimensionsReport
  repeat' first | with_reducible exact dimLoop _ _ _ _ _ | counts1
theorem purge (τ : TreeId) (n : Nat) (full : Bool) : Counts τ (BT.purge τ n full : M K V _) := by unfold BT.purge; counts
theorem touch (cmp : Compare K) (τ : TreeId) (n : Nat) : Counts τ (BT.touch cmp τ n : M K V _) := by unfold BT.touch; counts
theorem touchItem (cmp : Compare K) (τ : TreeId) (n k : Nat) : Counts τ (BT.touchItem cmp τ n k : M K V _) := by unfold BT.touchItem; counts
theorem postLeafLoop (i : Id) : ∀ (a k : Nat), Counts T (BT.postLeafLoop i a k : M K V _)
  | _, 0 => by unfold BT.postLeafLoop; counts
  | a, k + 1 => by
      have ih := postLeafLoop i (a + 1) k
      unfold BT.postLeafLoop
      counts
theorem postRef (l : Nat) (i : Id) : Counts T (BT.postRef l i : M K V _) := by unfold BT.postRef; counts
macro_rules | `(tactic| counts1) => `(tactic| with_reducible first | exact Counts.postRef _ _ | exact Counts.postLeafLoop _ _ _)
theorem postInnerLoop (i : Id) : ∀ (a k : Nat), Counts T (BT.postInnerLoop i a k : M K V _)
  | _, 0 => by unfold BT.postInnerLoop; counts
  | a, k + 1 => by
      have ih := postInnerLoop i (a + 1) k
      unfold BT.postInnerLoop
      counts
macro_rules | `(tactic| counts1) => `(tactic| with_reducible exact Counts.postInnerLoop _ _ _)
theorem postBody (i : Id) : Counts T (BT.postBody i : M K V _) := by unfold BT.postBody; counts
macro_rules | `(tactic| counts1) => `(tactic| with_reducible exact Counts.postBody _)

theorem postNode (size : DiskNode K V → Nat) (τ : TreeId) (i : Id) : Counts τ (BT.postNode size τ i) := by
  unfold BT.postNode
  counts
macro_rules | `(tactic| counts1) => `(tactic| with_reducible exact Counts.postNode _ _ _)
theorem flushNode (size : DiskNode K V → Nat) (τ : TreeId) (p : Bool) : ∀ (n : Nat) (i : Id), Counts τ (BT.flushNode size τ p n i)
  | 0, _ => by unfold BT.flushNode; counts
  | n + 1, i => by
      have ih := flushNode size τ p n
      unfold BT.flushNode
      repeat' first | with_reducible exact Counts.eachChild _ _ ih | counts1
theorem flush (size : DiskNode K V → Nat) (τ : TreeId) (n : Nat) (p : Bool) : Counts τ (BT.flush size τ n p) := by
  unfold BT.flush
  repeat' first | with_reducible exact Counts.flushNode _ _ _ _ _ | counts1
theorem pruneLoop : ∀ l, Counts T (BT.pruneLoop l : M K V _)
  | [] => by unfold BT.pruneLoop; counts
  | r :: l => by
      have ih := pruneLoop l
      unfold BT.pruneLoop
      counts
macro_rules | `(tactic| counts1) => `(tactic| with_reducible exact Counts.pruneLoop _)
theorem ranged (l : List Ref) : Counts T (BT.ranged l : M K V _) := of fun _ => ⟨rfl, rfl, rfl⟩
macro_rules | `(tactic| counts1) => `(tactic| with_reducible exact Counts.ranged _)
theorem pruneWhileLocked (τ : TreeId) : Counts τ (BT.pruneWhileLocked τ : M K V _) := by unfold BT.pruneWhileLocked; counts
macro_rules | `(tactic| counts1) => `(tactic| with_reducible exact Counts.pruneWhileLocked _)
theorem prune (τ : TreeId) : Counts τ (BT.prune τ : M K V _) := by unfold BT.prune; counts

end Counts

/-! Validate, FetchLayoutReport and the opening of a map load nodes without counting anything; Flush, Purge and Prune count nothing either. -/

/-- In any state, the action counts no hit and no miss. -/
structure Mute {α : Type} (m : M K V α) : Prop where
  run : ∀ w, (m w).2.ctl.hits = w.ctl.hits ∧ (m w).2.ctl.misses = w.ctl.misses

namespace Mute
variable {α β : Type}

theorem bind {m : M K V α} {f : α → M K V β} (h : Mute m) (g : ∀ a, Mute (f a)) : Mute (m >>= f) := by
  refine ⟨fun w => ?_⟩
  show (M.bind m f w).2.ctl.hits = _ ∧ (M.bind m f w).2.ctl.misses = _
  have := h.run w
  unfold M.bind
  rcases hm : m w with ⟨_ | _ | _, w'⟩ <;> rw [hm] at this <;> simp only at this ⊢
  · rename_i a
    have h2 := (g a).run w'
    exact ⟨h2.1.trans this.1, h2.2.trans this.2⟩
  · exact this
  · exact this

theorem of {m : M K V α} (h : ∀ w, (m w).2.ctl = w.ctl) : Mute m := ⟨fun w => by rw [h w]; exact ⟨rfl, rfl⟩⟩

theorem pure (a : α) : Mute (Pure.pure a : M K V α) := of fun _ => rfl
theorem throw (e : Err) : Mute (M.throw e : M K V α) := of fun _ => rfl
theorem fatal : Mute (M.fatal : M K V α) := of fun _ => rfl
theorem attempt {m : M K V α} (h : Mute m) : Mute (M.attempt m) := by
  refine ⟨fun w => ?_⟩
  have := h.run w
  unfold M.attempt
  rcases hm : m w with ⟨_ | _ | _, w'⟩ <;> rw [hm] at this <;> exact this
theorem deref (a : Option α) : Mute (M.deref a : M K V α) := by cases a <;> exact of fun _ => rfl
theorem must (n : Nat) (a : Option α) : Mute (M.must n a : M K V α) := by cases a <;> exact of fun _ => rfl
theorem check (n : Nat) (b : Bool) : Mute (M.check n b : M K V Unit) := by cases b <;> exact of fun _ => rfl
theorem getN (i : Id) : Mute (BT.getN i : M K V _) := of fun _ => rfl
theorem getP (i : Id) : Mute (BT.getP i : M K V _) := of fun _ => rfl
theorem getT (i : TreeId) : Mute (BT.getT i : M K V _) := of fun _ => rfl
theorem modN (i : Id) (f : NodeS K V → NodeS K V) : Mute (BT.modN i f) := of fun _ => rfl
theorem modP (i : Id) (f : PSum → PSum) : Mute (BT.modP i f : M K V Unit) := of fun _ => rfl
theorem modT (i : TreeId) (f : TreeS → TreeS) : Mute (BT.modT i f : M K V Unit) := of fun _ => rfl
theorem alloc (n : NodeS K V) : Mute (BT.alloc n) := of fun _ => rfl
theorem onLru (τ : TreeId) (f : LruS → Option LruS) : Mute (BT.onLru τ f : M K V Unit) := by
  refine of fun w => ?_
  unfold BT.onLru
  split
  · split <;> rfl
  · rfl
theorem startDrainer (τ : TreeId) : Mute (BT.startDrainer τ : M K V Unit) := by
  refine ⟨fun w => ?_⟩
  unfold BT.startDrainer BT.onCtl
  split
  · dsimp only
    split <;> exact ⟨rfl, rfl⟩
  · exact ⟨rfl, rfl⟩
theorem getNode (r : Ref) : Mute (BT.getNode r : M K V _) := by
  refine of fun w => ?_
  unfold BT.getNode
  dsimp only
  split
  · rfl
  · split <;> rfl
theorem unpack : Mute (BT.unpack : M K V _) := by
  refine of fun w => ?_
  unfold BT.unpack
  dsimp only
  split <;> rfl
theorem pack : Mute (BT.pack : M K V _) := by
  refine of fun w => ?_
  unfold BT.pack
  dsimp only
  split <;> rfl
theorem putNode (d : DiskNode K V) (n : Nat) : Mute (BT.putNode d n) := by
  refine of fun w => ?_
  unfold BT.putNode
  dsimp only
  split
  · rfl
  · split <;> rfl
theorem discardDisk (r : Ref) : Mute (BT.discardDisk r : M K V _) := by
  refine of fun w => ?_
  unfold BT.discardDisk
  dsimp only
  split
  · rfl
  · split <;> rfl

end Mute

/-- One step of a proof of `Mute`; each function adds itself below. -/
syntax "mute1" : tactic
macro_rules | `(tactic| mute1) => `(tactic| dsimp only)
macro_rules | `(tactic| mute1) => `(tactic| with_reducible assumption)
macro_rules | `(tactic| mute1) => `(tactic| intro _)
macro_rules | `(tactic| mute1) => `(tactic| split)
macro_rules | `(tactic| mute1) => `(tactic| with_reducible apply Mute.bind)
macro_rules | `(tactic| mute1) => `(tactic| with_reducible apply Mute.attempt)
macro_rules | `(tactic| mute1) => `(tactic| with_reducible first | exact Mute.pure _ | exact Mute.throw _ | exact Mute.fatal | exact Mute.deref _ | exact Mute.must _ _ | exact Mute.check _ _ | exact Mute.getN _ | exact Mute.getP _ | exact Mute.getT _ | exact Mute.modN _ _ | exact Mute.modP _ _ | exact Mute.modT _ _ | exact Mute.alloc _ | exact Mute.onLru _ _ | exact Mute.startDrainer _ | exact Mute.getNode _ | exact Mute.unpack | exact Mute.pack | exact Mute.putNode _ _ | exact Mute.discardDisk _)
macro "mute" : tactic => `(tactic| repeat' mute1)

namespace Mute

theorem rootOf (τ : TreeId) : Mute (BT.rootOf τ : M K V Id) := by unfold BT.rootOf; mute
macro_rules | `(tactic| mute1) => `(tactic| with_reducible exact Mute.rootOf _)
theorem kvOf (i : Id) : Mute (BT.kvOf i : M K V _) := by unfold BT.kvOf; mute
macro_rules | `(tactic| mute1) => `(tactic| with_reducible exact Mute.kvOf _)
theorem setKv (i : Id) (t : LLRB.Tree K (Val V)) : Mute (BT.setKv i t) := by unfold BT.setKv; mute
macro_rules | `(tactic| mute1) => `(tactic| with_reducible exact Mute.setKv _ _)
theorem kvLen (i : Id) : Mute (BT.kvLen i : M K V _) := by unfold BT.kvLen; mute
macro_rules | `(tactic| mute1) => `(tactic| with_reducible exact Mute.kvLen _)
theorem kvGetByIndex (i : Id) (n : Int) : Mute (BT.kvGetByIndex i n : M K V _) := by unfold BT.kvGetByIndex; mute
macro_rules | `(tactic| mute1) => `(tactic| with_reducible exact Mute.kvGetByIndex _ _)
theorem kvFinish (i : Id) (r : Option ((Bool × Option Err) × LLRB.Tree K (Val V))) : Mute (BT.kvFinish i r) := by unfold BT.kvFinish; mute
macro_rules | `(tactic| mute1) => `(tactic| with_reducible exact Mute.kvFinish _ _)
theorem kvPut (cmp : Compare K) (i : Id) (k : K) (v : Val V) : Mute (BT.kvPut cmp i k v) := by unfold BT.kvPut; mute
macro_rules | `(tactic| mute1) => `(tactic| with_reducible exact Mute.kvPut _ _ _ _)
theorem kvPutIgnore (cmp : Compare K) (i : Id) (k : K) (v : Val V) : Mute (BT.kvPutIgnore cmp i k v) := by unfold BT.kvPutIgnore; mute
macro_rules | `(tactic| mute1) => `(tactic| with_reducible exact Mute.kvPutIgnore _ _ _ _)
theorem kvDeleteByIndex (cmp : Compare K) (i : Id) (n : Int) : Mute (BT.kvDeleteByIndex cmp i n : M K V _) := by unfold BT.kvDeleteByIndex; mute
macro_rules | `(tactic| mute1) => `(tactic| with_reducible exact Mute.kvDeleteByIndex _ _ _)
theorem liftBisect (r : Option (Int × Bool × Option Err)) : Mute (BT.liftBisect r : M K V _) := by unfold BT.liftBisect; mute
macro_rules | `(tactic| mute1) => `(tactic| with_reducible exact Mute.liftBisect _)
theorem asNode (v : Val V) : Mute (BT.asNode v : M K V _) := by unfold BT.asNode; mute
macro_rules | `(tactic| mute1) => `(tactic| with_reducible exact Mute.asNode _)
theorem asItem (v : Val V) : Mute (BT.asItem v : M K V _) := by unfold BT.asItem; mute
macro_rules | `(tactic| mute1) => `(tactic| with_reducible exact Mute.asItem _)
theorem kvChild (i : Id) (n : Int) : Mute (BT.kvChild i n : M K V _) := by unfold BT.kvChild; mute
macro_rules | `(tactic| mute1) => `(tactic| with_reducible exact Mute.kvChild _ _)
theorem kvChildOk (l : Nat) (i : Id) (n : Int) : Mute (BT.kvChildOk l i n : M K V _) := by unfold BT.kvChildOk; mute
macro_rules | `(tactic| mute1) => `(tactic| with_reducible exact Mute.kvChildOk _ _ _)
theorem initNodeAsEvicted (τ : TreeId) (i : Id) : Mute (BT.initNodeAsEvicted τ i : M K V _) := by unfold BT.initNodeAsEvicted; mute
theorem markNodeUsed (τ : TreeId) (i : Id) : Mute (BT.markNodeUsed τ i : M K V _) := by unfold BT.markNodeUsed; mute
theorem markNodeClean (τ : TreeId) (i : Id) : Mute (BT.markNodeClean τ i : M K V _) := by unfold BT.markNodeClean; mute
theorem placeStale (τ : TreeId) (i : Id) : Mute (BT.placeStale τ i : M K V _) := by unfold BT.placeStale; mute
macro_rules | `(tactic| mute1) => `(tactic| with_reducible exact Mute.placeStale _ _)
theorem markNodeDirty (τ : TreeId) (i : Id) : Mute (BT.markNodeDirty τ i : M K V _) := by unfold BT.markNodeDirty; mute
theorem markNodeEvicted (τ : TreeId) (i : Id) : Mute (BT.markNodeEvicted τ i : M K V _) := by unfold BT.markNodeEvicted; mute
theorem markNodeToBeDiscarded (τ : TreeId) (i : Id) : Mute (BT.markNodeToBeDiscarded τ i : M K V _) := by unfold BT.markNodeToBeDiscarded; mute
macro_rules | `(tactic| mute1) => `(tactic| with_reducible first | exact Mute.initNodeAsEvicted _ _ | exact Mute.markNodeUsed _ _ | exact Mute.markNodeClean _ _ | exact Mute.markNodeDirty _ _ | exact Mute.markNodeEvicted _ _ | exact Mute.markNodeToBeDiscarded _ _)

theorem arrangeRec : ∀ (n : Nat) (l : List Id), Mute (BT.arrangeRec n l : M K V _)
  | 0, _ => by unfold BT.arrangeRec; mute
  | n + 1, l => by
      have ih := arrangeRec n
      unfold BT.arrangeRec
      repeat' first | with_reducible exact ih _ | mute1
macro_rules | `(tactic| mute1) => `(tactic| with_reducible exact Mute.arrangeRec _ _)
theorem resetPs (c : Id) (n : Int) : Mute (BT.resetPs c n : M K V _) := by unfold BT.resetPs; mute
macro_rules | `(tactic| mute1) => `(tactic| with_reducible exact Mute.resetPs _ _)
theorem arrangeLoop (node : Id) : ∀ (i k : Nat), Mute (BT.arrangeLoop node i k : M K V _)
  | _, 0 => by unfold BT.arrangeLoop; mute
  | i, k + 1 => by
      have ih := arrangeLoop node (i + 1) k
      unfold BT.arrangeLoop
      mute
macro_rules | `(tactic| mute1) => `(tactic| with_reducible exact Mute.arrangeLoop _ _ _)
theorem arrangePrefixSumTree (i : Id) : Mute (BT.arrangePrefixSumTree i : M K V _) := by unfold BT.arrangePrefixSumTree; mute
macro_rules | `(tactic| mute1) => `(tactic| with_reducible exact Mute.arrangePrefixSumTree _)
theorem arrangeIgnore (i : Id) : Mute (BT.arrangeIgnore i : M K V _) := by unfold BT.arrangeIgnore; mute
macro_rules | `(tactic| mute1) => `(tactic| with_reducible exact Mute.arrangeIgnore _)
theorem rearrange (τ : TreeId) : ∀ (n : Nat) (i : Id), Mute (BT.rearrangePrefixSumTreeToRoot τ n i : M K V _)
  | 0, _ => by unfold BT.rearrangePrefixSumTreeToRoot; mute
  | n + 1, i => by
      have ih := rearrange τ n
      unfold BT.rearrangePrefixSumTreeToRoot
      repeat' first | with_reducible exact ih _ | mute1
macro_rules | `(tactic| mute1) => `(tactic| with_reducible exact Mute.rearrange _ _ _)
theorem updatePsUp (δ : Int) : ∀ (n : Nat) (i : Id), Mute (BT.updatePsUp δ n i : M K V _)
  | 0, _ => by unfold BT.updatePsUp; mute
  | n + 1, i => by
      have ih := updatePsUp δ n
      unfold BT.updatePsUp
      repeat' first | with_reducible exact ih _ | mute1
macro_rules | `(tactic| mute1) => `(tactic| with_reducible exact Mute.updatePsUp _ _ _)
theorem updateRec (τ : TreeId) (δ : Int) : ∀ (n : Nat) (i : Id), Mute (BT.updateRec τ δ n i : M K V _)
  | 0, _ => by unfold BT.updateRec; mute
  | n + 1, i => by
      have ih := updateRec τ δ n
      unfold BT.updateRec
      repeat' first | with_reducible exact ih _ | mute1
macro_rules | `(tactic| mute1) => `(tactic| with_reducible exact Mute.updateRec _ _ _ _)
theorem update (τ : TreeId) (n : Nat) (i : Id) : Mute (BT.updatePrefixSumTreeLeafToRoot τ n i : M K V _) := by
  unfold BT.updatePrefixSumTreeLeafToRoot; mute
macro_rules | `(tactic| mute1) => `(tactic| with_reducible exact Mute.update _ _ _)
theorem touchUp (τ : TreeId) : ∀ (n : Nat) (i : Id), Mute (BT.touchLoadedNodeToRoot τ n i : M K V _)
  | 0, _ => by unfold BT.touchLoadedNodeToRoot; mute
  | n + 1, i => by
      have ih := touchUp τ n
      unfold BT.touchLoadedNodeToRoot
      repeat' first | with_reducible exact ih _ | mute1
macro_rules | `(tactic| mute1) => `(tactic| with_reducible exact Mute.touchUp _ _ _)

theorem loadLeafLoop (cmp : Compare K) (i : Id) : ∀ l : List (K × V), Mute (BT.loadLeafLoop cmp i l)
  | [] => by unfold BT.loadLeafLoop; mute
  | (k, v) :: l => by
      have ih := loadLeafLoop cmp i l
      unfold BT.loadLeafLoop
      mute
macro_rules | `(tactic| mute1) => `(tactic| with_reducible exact Mute.loadLeafLoop _ _ _)
theorem loadInnerLoop (cmp : Compare K) (τ : TreeId) (i : Id) : ∀ l, Mute (BT.loadInnerLoop cmp τ i l : M K V _)
  | [] => by unfold BT.loadInnerLoop; mute
  | (k, v) :: l => by
      have ih := loadInnerLoop cmp τ i l
      unfold BT.loadInnerLoop
      mute
macro_rules | `(tactic| mute1) => `(tactic| with_reducible exact Mute.loadInnerLoop _ _ _ _)
theorem loadBody (cmp : Compare K) (τ : TreeId) (i : Id) (b : DiskBody K V) : Mute (BT.loadBody cmp τ i b) := by cases b <;> (unfold BT.loadBody; mute)
macro_rules | `(tactic| mute1) => `(tactic| with_reducible exact Mute.loadBody _ _ _ _)
theorem loadMax (τ : TreeId) (d : DiskNode K V) : Mute (BT.loadMax τ d) := by unfold BT.loadMax; mute
macro_rules | `(tactic| mute1) => `(tactic| with_reducible exact Mute.loadMax _ _)
theorem loadNode (cmp : Compare K) (τ : TreeId) (i : Id) : Mute (BT.loadNode cmp τ i : M K V _) := by unfold BT.loadNode; mute
macro_rules | `(tactic| mute1) => `(tactic| with_reducible exact Mute.loadNode _ _ _)
theorem evict (τ : TreeId) (i : Id) : Mute (BT.evict τ i : M K V _) := by unfold BT.evict; mute
macro_rules | `(tactic| mute1) => `(tactic| with_reducible exact Mute.evict _ _)
theorem forChildren (l : Nat) (i : Id) {f : Id → M K V Unit} (hf : ∀ c, Mute (f c)) : ∀ (a k : Nat), Mute (BT.forChildren l i f a k)
  | _, 0 => by unfold BT.forChildren; mute
  | a, k + 1 => by
      have ih := forChildren l i hf (a + 1) k
      unfold BT.forChildren
      repeat' first | with_reducible exact hf _ | mute1
theorem eachChild (l : Nat) (i : Id) {f : Id → M K V Unit} (hf : ∀ c, Mute (f c)) : Mute (BT.eachChild l i f) := by
  have := forChildren l i hf
  unfold BT.eachChild
  repeat' first | with_reducible exact hf _ | with_reducible exact this _ _ | mute1
macro_rules | `(tactic| mute1) => `(tactic| with_reducible apply Mute.eachChild)
theorem purgeNode (τ : TreeId) (full : Bool) : ∀ (n : Nat) (i : Id), Mute (BT.purgeNode τ full n i : M K V _)
  | 0, _ => by unfold BT.purgeNode; mute
  | n + 1, i => by
      have ih := purgeNode τ full n
      unfold BT.purgeNode
      repeat' first | with_reducible exact ih _ | mute1
macro_rules | `(tactic| mute1) => `(tactic| with_reducible exact Mute.purgeNode _ _ _ _)
theorem validatePrefixSum : ∀ (n : Nat) (i : Id), Mute (BT.validatePrefixSum n i : M K V _)
  | 0, _ => by unfold BT.validatePrefixSum; mute
  | n + 1, i => by
      have ih := validatePrefixSum n
      unfold BT.validatePrefixSum
      repeat' first | with_reducible exact ih _ | mute1
macro_rules | `(tactic| mute1) => `(tactic| with_reducible exact Mute.validatePrefixSum _ _)
theorem validateLoad (cmp : Compare K) (i : Id) : Mute (BT.validateLoad cmp i : M K V _) := by unfold BT.validateLoad; mute
macro_rules | `(tactic| mute1) => `(tactic| with_reducible exact Mute.validateLoad _ _)
theorem kvValidate (i : Id) : Mute (BT.kvValidate i : M K V _) := by unfold BT.kvValidate; mute
macro_rules | `(tactic| mute1) => `(tactic| with_reducible exact Mute.kvValidate _)
theorem valid (l : Nat) (c : Bool) : Mute (BT.valid l c : M K V _) := by unfold BT.valid; mute
macro_rules | `(tactic| mute1) => `(tactic| with_reducible exact Mute.valid _ _)
theorem validateChild (l : Nat) (i : Id) {f : Id → M K V Unit} (hf : ∀ c, Mute (f c)) (c : Id) : Mute (BT.validateChild l i f c) := by
  unfold BT.validateChild
  repeat' first | with_reducible exact hf _ | mute1
theorem validateLoop (i : Id) {f : Id → M K V Unit} (hf : ∀ c, Mute (f c)) : ∀ (a k : Nat), Mute (BT.validateLoop i f a k)
  | _, 0 => by unfold BT.validateLoop; mute
  | a, k + 1 => by
      have ih := validateLoop i hf (a + 1) k
      unfold BT.validateLoop
      repeat' first | with_reducible exact Mute.validateChild _ _ hf _ | mute1
theorem validateNode (cmp : Compare K) : ∀ (n : Nat) (i : Id), Mute (BT.validateNode cmp n i : M K V _)
  | 0, _ => by unfold BT.validateNode; mute
  | n + 1, i => by
      have ih := validateNode cmp n
      unfold BT.validateNode
      repeat' first | with_reducible exact Mute.validateChild _ _ ih _ | with_reducible exact Mute.validateLoop _ ih _ _ | mute1
macro_rules | `(tactic| mute1) => `(tactic| with_reducible exact Mute.validateNode _ _ _)

theorem fetchLocation (τ : TreeId) : Mute (BT.fetchLocation τ : M K V _) := by unfold BT.fetchLocation; mute
macro_rules | `(tactic| mute1) => `(tactic| with_reducible exact Mute.fetchLocation _)
mutual
theorem updateLayoutReport (cmp : Compare K) (τ : TreeId) : ∀ (n : Nat) (i : Id) (m : Layout), Mute (BT.updateLayoutReport cmp τ n i m : M K V _)
  | 0, _, _ => by unfold BT.updateLayoutReport; mute
  | n + 1, i, m => by
      have ih := updateLayoutReport cmp τ n
      have ih2 := layoutLoop cmp τ n
      unfold BT.updateLayoutReport
      repeat' first | with_reducible exact ih _ _ | with_reducible exact ih2 _ _ _ _ | mute1
theorem layoutLoop (cmp : Compare K) (τ : TreeId) : ∀ (n : Nat) (i : Id) (a k : Nat) (m : Layout), Mute (BT.layoutLoop cmp τ n i a k m : M K V _)
  | _, _, _, 0, _ => by unfold BT.layoutLoop; mute
  | n, i, a, k + 1, m => by
      have ih := updateLayoutReport cmp τ n
      have ih2 := fun a m => layoutLoop cmp τ n i a k m
      unfold BT.layoutLoop
      repeat' first | with_reducible exact ih _ _ | with_reducible exact ih2 _ _ | mute1
end
theorem fetchLayoutReport (cmp : Compare K) (τ : TreeId) (n : Nat) : Mute (BT.fetchLayoutReport cmp τ n : M K V _) := by
  unfold BT.fetchLayoutReport
  repeat' first | with_reducible exact updateLayoutReport _ _ _ _ _ | mute1
theorem dumpFields (τ : TreeId) (d : Nat) (i : Id) : Mute (BT.dumpFields τ d i : M K V _) := of fun _ => rfl
macro_rules | `(tactic| mute1) => `(tactic| with_reducible exact Mute.dumpFields _ _ _)
theorem dumpHead (c : Bool) : Mute (BT.dumpHead c : M K V _) := of fun _ => rfl
macro_rules | `(tactic| mute1) => `(tactic| with_reducible exact Mute.dumpHead _)
theorem dumpLoop (cb : DumpCb K V) (d : Nat) (l : Bool) (i : Id) {f : Id → M K V (List (Line K V) × Option Err)} (hf : ∀ c, Mute (f c)) :
    ∀ (a k : Nat), Mute (BT.dumpLoop cb d l i f a k)
  | _, 0 => by unfold BT.dumpLoop; mute
  | a, k + 1 => by
      have ih := dumpLoop cb d l i hf (a + 1) k
      unfold BT.dumpLoop
      repeat' first | with_reducible exact hf _ | mute1
theorem dumpLeft (d : Nat) (n : NodeS K V) {f : Id → M K V (List (Line K V) × Option Err)} (hf : ∀ c, Mute (f c)) : Mute (BT.dumpLeft d n f) := by
  unfold BT.dumpLeft
  repeat' first | with_reducible exact hf _ | mute1
theorem dumpNode (cmp : Compare K) (cb : DumpCb K V) (τ : TreeId) : ∀ (n d : Nat) (i : Id), Mute (BT.dumpNode cmp cb τ n d i)
  | 0, _, _ => by unfold BT.dumpNode; mute
  | n + 1, d, i => by
      have ih := dumpNode cmp cb τ n (d + 1)
      unfold BT.dumpNode
      repeat' first | with_reducible exact Mute.dumpLeft _ _ ih | with_reducible exact Mute.dumpLoop _ _ _ _ ih _ _ | mute1
theorem dump (cmp : Compare K) (cb : DumpCb K V) (τ : TreeId) (n : Nat) : Mute (BT.dump cmp cb τ n) := by
  unfold BT.dump
  repeat' first | with_reducible exact Mute.dumpNode _ _ _ _ _ _ | mute1
theorem purge (τ : TreeId) (n : Nat) (full : Bool) : Mute (BT.purge τ n full : M K V _) := by unfold BT.purge; mute
theorem newBPlusTree (τ : TreeId) (n : Nat) (c : Bool) : Mute (BT.newBPlusTree τ n c : M K V _) := by unfold BT.newBPlusTree; mute
theorem oldBPlusTree (cmp : Compare K) (τ : TreeId) (r : Ref) (c : Bool) : Mute (BT.oldBPlusTree cmp τ r c : M K V _) := by unfold BT.oldBPlusTree; mute
theorem postLeafLoop (i : Id) : ∀ (a k : Nat), Mute (BT.postLeafLoop i a k : M K V _)
  | _, 0 => by unfold BT.postLeafLoop; mute
  | a, k + 1 => by
      have ih := postLeafLoop i (a + 1) k
      unfold BT.postLeafLoop
      mute
theorem postRef (l : Nat) (i : Id) : Mute (BT.postRef l i : M K V _) := by unfold BT.postRef; mute
macro_rules | `(tactic| mute1) => `(tactic| with_reducible first | exact Mute.postRef _ _ | exact Mute.postLeafLoop _ _ _)
theorem postInnerLoop (i : Id) : ∀ (a k : Nat), Mute (BT.postInnerLoop i a k : M K V _)
  | _, 0 => by unfold BT.postInnerLoop; mute
  | a, k + 1 => by
      have ih := postInnerLoop i (a + 1) k
      unfold BT.postInnerLoop
      mute
macro_rules | `(tactic| mute1) => `(tactic| with_reducible exact Mute.postInnerLoop _ _ _)
theorem postBody (i : Id) : Mute (BT.postBody i : M K V _) := by unfold BT.postBody; mute
macro_rules | `(tactic| mute1) => `(tactic| with_reducible exact Mute.postBody _)

theorem postNode (size : DiskNode K V → Nat) (τ : TreeId) (i : Id) : Mute (BT.postNode size τ i) := by
  unfold BT.postNode
  mute
macro_rules | `(tactic| mute1) => `(tactic| with_reducible exact Mute.postNode _ _ _)
theorem flushNode (size : DiskNode K V → Nat) (τ : TreeId) (p : Bool) : ∀ (n : Nat) (i : Id), Mute (BT.flushNode size τ p n i)
  | 0, _ => by unfold BT.flushNode; mute
  | n + 1, i => by
      have ih := flushNode size τ p n
      unfold BT.flushNode
      repeat' first | with_reducible exact Mute.eachChild _ _ ih | mute1
theorem flush (size : DiskNode K V → Nat) (τ : TreeId) (n : Nat) (p : Bool) : Mute (BT.flush size τ n p) := by
  unfold BT.flush
  repeat' first | with_reducible exact Mute.flushNode _ _ _ _ _ | mute1
theorem pruneLoop : ∀ l, Mute (BT.pruneLoop l : M K V _)
  | [] => by unfold BT.pruneLoop; mute
  | r :: l => by
      have ih := pruneLoop l
      unfold BT.pruneLoop
      mute
macro_rules | `(tactic| mute1) => `(tactic| with_reducible exact Mute.pruneLoop _)
theorem ranged (l : List Ref) : Mute (BT.ranged l : M K V _) := of fun _ => rfl
macro_rules | `(tactic| mute1) => `(tactic| with_reducible exact Mute.ranged _)
theorem pruneWhileLocked (τ : TreeId) : Mute (BT.pruneWhileLocked τ : M K V _) := by unfold BT.pruneWhileLocked; mute
macro_rules | `(tactic| mute1) => `(tactic| with_reducible exact Mute.pruneWhileLocked _)
theorem prune (τ : TreeId) : Mute (BT.prune τ : M K V _) := by unfold BT.prune; mute

theorem drainerEvict (n : Nat) (i : Id) : Mute (BT.drainerEvict n i : M K V _) := by
  refine ⟨fun w => ?_⟩
  unfold BT.drainerEvict
  split
  · exact ⟨rfl, rfl⟩
  · have := purgeNode (K := K) (V := V) (w.node i).tree true n i |>.run w
    split <;> simp_all

end Mute

end SM.BT

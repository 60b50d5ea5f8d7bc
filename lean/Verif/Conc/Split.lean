import Verif.BTree.Drainer
import Verif.Conc.Lin

/-! Calls on a B+Tree in steps: every function of the model is a sequence of basic actions - single reads and writes, sections under the mutex of
the cache, callbacks - none of which looks at the limits, counters and drainer flag of the cache. -/

namespace SM.BT

variable {K V : Type}

/-- Same but for the limits, counters and drainer flag of the cache. -/
def SameBut (w w' : World K V) : Prop := ∃ c, w' = { w with ctl := c }

theorem SameBut.refl (w : World K V) : SameBut w w := ⟨w.ctl, rfl⟩
theorem SameBut.equiv : Equivalence (SameBut : World K V → World K V → Prop) :=
  ⟨.refl, @fun w _ ⟨c, h⟩ => ⟨w.ctl, by rw [h]⟩, fun ⟨c, h⟩ ⟨c', h'⟩ => ⟨c', by rw [h', h]⟩⟩

/-- The limits stay, the counters do not decrease. -/
structure Ctl.Kept (c c' : Ctl) : Prop where
  low : c'.low = c.low
  high : c'.high = c.high
  hits : c.hits ≤ c'.hits
  misses : c.misses ≤ c'.misses

theorem Ctl.Kept.refl (c : Ctl) : c.Kept c := ⟨rfl, rfl, Nat.le_refl _, Nat.le_refl _⟩
theorem Ctl.Kept.trans {a b c : Ctl} (h : a.Kept b) (g : b.Kept c) : a.Kept c := ⟨g.low.trans h.low, g.high.trans h.high, h.hits.trans g.hits, h.misses.trans g.misses⟩

/-- The basic actions. -/
inductive Basic : {α : Type} → M K V α → Prop where
  | getN (i : Id) : Basic (getN i)
  | modN (i : Id) (f : NodeS K V → NodeS K V) : Basic (modN i f)
  | getP (i : Id) : Basic (getP i)
  | modP (i : Id) (f : PSum → PSum) : Basic (modP i f)
  | getT (τ : TreeId) : Basic (getT τ)
  | modT (τ : TreeId) (f : TreeS → TreeS) : Basic (modT τ f)
  | alloc (n : NodeS K V) : Basic (alloc n)
  | onLru (τ : TreeId) (f : LruS → Option LruS) : Basic (onLru τ f)
  | onCtl (τ : TreeId) (f : Ctl → Ctl) (hf : ∀ c : Ctl, c.Kept (f c)) : Basic (onCtl τ f)
  | startDrainer (τ : TreeId) : Basic (startDrainer τ)
  | getNode (r : Ref) : Basic (getNode r)
  | unpack : Basic unpack
  | pack : Basic pack
  | putNode (d : DiskNode K V) (n : Nat) : Basic (putNode d n)
  | discardDisk (r : Ref) : Basic (discardDisk r)
  | ranged (l : List Ref) : Basic (ranged l)
  | tagOf (i : Id) : Basic (fun w => (Out.ok (w.lru.el i).tag, w))

/-- What a basic action does depends on nothing but what `SameBut` compares. -/
theorem Basic.deaf {α : Type} {m : M K V α} (h : Basic m) {w w' : World K V} (hw : SameBut w w') : (m w).1 = (m w').1 ∧ SameBut (m w).2 (m w').2 := by
  obtain ⟨c, rfl⟩ := hw
  cases h with
  | getN i => exact ⟨rfl, c, rfl⟩
  | modN i f => exact ⟨rfl, c, rfl⟩
  | getP i => exact ⟨rfl, c, rfl⟩
  | modP i f => exact ⟨rfl, c, rfl⟩
  | getT i => exact ⟨rfl, c, rfl⟩
  | modT i f => exact ⟨rfl, c, rfl⟩
  | alloc n => exact ⟨rfl, c, rfl⟩
  | tagOf i => exact ⟨rfl, c, rfl⟩
  | onLru τ f =>
    simp only [BT.onLru]
    split
    · split <;> exact ⟨rfl, c, rfl⟩
    · exact ⟨rfl, c, rfl⟩
  | onCtl τ f _ =>
    simp only [BT.onCtl]
    split
    · exact ⟨rfl, _, rfl⟩
    · exact ⟨rfl, c, rfl⟩
  | startDrainer τ =>
    simp only [BT.startDrainer, BT.onCtl]
    split
    · exact ⟨rfl, _, rfl⟩
    · exact ⟨rfl, c, rfl⟩
  | getNode r =>
    simp only [BT.getNode]
    split
    · exact ⟨rfl, c, rfl⟩
    · split <;> exact ⟨rfl, c, rfl⟩
  | unpack =>
    simp only [BT.unpack]
    split <;> exact ⟨rfl, c, rfl⟩
  | pack =>
    simp only [BT.pack]
    split <;> exact ⟨rfl, c, rfl⟩
  | putNode d n =>
    simp only [BT.putNode]
    split
    · exact ⟨rfl, c, rfl⟩
    · split <;> exact ⟨rfl, c, rfl⟩
  | ranged l => exact ⟨rfl, c, rfl⟩
  | discardDisk r =>
    simp only [BT.discardDisk]
    split
    · exact ⟨rfl, c, rfl⟩
    · split <;> exact ⟨rfl, c, rfl⟩

/-- What follows the steps of a first action: those of the next, or nothing if the first ended in an error or a panic. -/
def next {α β σ : Type} (k : α → Conc.Body σ (Out β)) : Out α → Conc.Body σ (Out β)
  | .ok a => k a
  | .err e => .ret (.err e)
  | .fatal => .ret .fatal

/-- The error is handed on as a value. -/
def caught {α : Type} : Out α → Out (Except Err α)
  | .ok a => .ok (.ok a)
  | .err e => .ok (.error e)
  | .fatal => .fatal

/-- The steps of an action: those of the basic actions it is made of. -/
inductive Split : {α : Type} → M K V α → Conc.Body (World K V) (Out α) → Prop where
  | pure {α : Type} (a : α) : Split (pure a : M K V α) (.ret (.ok a))
  | throw {α : Type} (e : Err) : Split (M.throw e : M K V α) (.ret (.err e))
  | fatal {α : Type} : Split (M.fatal : M K V α) (.ret .fatal)
  | basic {α : Type} {m : M K V α} : Basic m → Split m (.act (fun w => (m w).2) fun w => .ret (m w).1)
  | bind {α β : Type} {m : M K V α} {f : α → M K V β} {b : Conc.Body (World K V) (Out α)} {k : α → Conc.Body (World K V) (Out β)} :
      Split m b → (∀ a, Split (f a) (k a)) → Split (m >>= f) (b.bind (next k))
  | attempt {α : Type} {m : M K V α} {b : Conc.Body (World K V) (Out α)} : Split m b → Split (M.attempt m) (b.bind fun o => .ret (caught o))

theorem Split.spec {α : Type} {m : M K V α} {b : Conc.Body (World K V) (Out α)} (h : Split m b) : b.Blind (fun _ => True) SameBut ∧ ∀ w, b.eval w = m w := by
  induction h with
  | pure a => exact ⟨.ret _, fun _ => rfl⟩
  | throw e => exact ⟨.ret _, fun _ => rfl⟩
  | fatal => exact ⟨.ret _, fun _ => rfl⟩
  | basic h => exact ⟨.act (fun _ _ => trivial) (fun _ _ _ _ e => (h.deaf e).2) (fun _ _ _ _ e => by rw [(h.deaf e).1]) fun _ _ => .ret _, fun _ => rfl⟩
  | @bind α β m f b k _ _ ih1 ih2 =>
    refine ⟨ih1.1.bind fun o => ?_, fun w => ?_⟩
    · cases o with
      | ok a => exact (ih2 a).1
      | err e => exact .ret _
      | fatal => exact .ret _
    · rw [Conc.Body.eval_bind, ih1.2 w]
      show _ = M.bind m f w
      rw [M.bind]
      rcases m w with ⟨_ | _ | _, w'⟩
      · exact (ih2 _).2 w'
      · rfl
      · rfl
  | @attempt α m b _ ih =>
    refine ⟨ih.1.bind fun o => .ret _, fun w => ?_⟩
    rw [Conc.Body.eval_bind, ih.2 w, M.attempt]
    rcases m w with ⟨_ | _ | _, w'⟩ <;> rfl

theorem Basic.kept {α : Type} {m : M K V α} (h : Basic m) (w : World K V) : w.ctl.Kept (m w).2.ctl := by
  cases h with
  | onLru τ f =>
    simp only [BT.onLru]
    split
    · split <;> exact .refl _
    · exact .refl _
  | onCtl τ f hf =>
    simp only [BT.onCtl]
    split
    · exact hf _
    · exact .refl _
  | startDrainer τ =>
    simp only [BT.startDrainer, BT.onCtl]
    split
    · dsimp only
      split
      · exact ⟨rfl, rfl, Nat.le_refl _, Nat.le_refl _⟩
      · exact .refl _
    · exact .refl _
  | getNode r =>
    simp only [BT.getNode]
    split
    · exact .refl _
    · split <;> exact .refl _
  | unpack =>
    simp only [BT.unpack]
    split <;> exact .refl _
  | pack =>
    simp only [BT.pack]
    split <;> exact .refl _
  | putNode d n =>
    simp only [BT.putNode]
    split
    · exact .refl _
    · split <;> exact .refl _
  | ranged l => exact .refl _
  | discardDisk r =>
    simp only [BT.discardDisk]
    split
    · exact .refl _
    · split <;> exact .refl _
  | _ => exact .refl _

theorem Split.kept {α : Type} {m : M K V α} {b : Conc.Body (World K V) (Out α)} (h : Split m b) (w : World K V) : w.ctl.Kept (m w).2.ctl := by
  induction h generalizing w with
  | pure a => exact .refl _
  | throw e => exact .refl _
  | fatal => exact .refl _
  | basic h => exact h.kept w
  | @bind α β m f b k _ _ ih1 ih2 =>
    have h1 := ih1 w
    show w.ctl.Kept (M.bind m f w).2.ctl
    rw [M.bind]
    rcases hm : m w with ⟨_ | _ | _, w'⟩ <;> rw [hm] at h1
    · exact h1.trans (ih2 _ w')
    · exact h1
    · exact h1
  | @attempt α m b _ ih =>
    have h1 := ih w
    rw [M.attempt]
    rcases hm : m w with ⟨_ | _ | _, w'⟩ <;> rw [hm] at h1 <;> exact h1

/-- The action can be cut into basic actions. -/
def Splits {α : Type} (m : M K V α) : Prop := ∃ b, Split m b

namespace Splits
variable {α β : Type}

theorem bind {m : M K V α} {f : α → M K V β} (h : Splits m) (g : ∀ a, Splits (f a)) : Splits (m >>= f) := by
  obtain ⟨b, hb⟩ := h
  obtain ⟨k, hk⟩ := Classical.axiomOfChoice g
  exact ⟨_, hb.bind hk⟩
theorem attempt {m : M K V α} (h : Splits m) : Splits (M.attempt m) := h.elim fun _ h => ⟨_, h.attempt⟩
theorem pure (a : α) : Splits (Pure.pure a : M K V α) := ⟨_, .pure a⟩
theorem throw (e : Err) : Splits (M.throw e : M K V α) := ⟨_, .throw e⟩
theorem fatal : Splits (M.fatal : M K V α) := ⟨_, .fatal⟩
theorem deref (a : Option α) : Splits (M.deref a : M K V α) := by cases a; exacts [⟨_, .fatal⟩, ⟨_, .pure _⟩]
theorem must (n : Nat) (a : Option α) : Splits (M.must n a : M K V α) := by cases a; exacts [⟨_, .throw _⟩, ⟨_, .pure _⟩]
theorem check (n : Nat) (b : Bool) : Splits (M.check n b : M K V Unit) := by cases b; exacts [⟨_, .throw _⟩, ⟨_, .pure _⟩]
theorem of {m : M K V α} (h : Basic m) : Splits m := ⟨_, .basic h⟩
theorem getN (i : Id) : Splits (BT.getN i : M K V _) := .of (.getN i)
theorem getP (i : Id) : Splits (BT.getP i : M K V _) := .of (.getP i)
theorem getT (i : TreeId) : Splits (BT.getT i : M K V _) := .of (.getT i)
theorem modN (i : Id) (f : NodeS K V → NodeS K V) : Splits (BT.modN i f : M K V _) := .of (.modN i f)
theorem modP (i : Id) (f : PSum → PSum) : Splits (BT.modP i f : M K V _) := .of (.modP i f)
theorem modT (i : TreeId) (f : TreeS → TreeS) : Splits (BT.modT i f : M K V _) := .of (.modT i f)
theorem alloc (n : NodeS K V) : Splits (BT.alloc n : M K V _) := .of (.alloc n)
theorem onLru (τ : TreeId) (f : LruS → Option LruS) : Splits (BT.onLru τ f : M K V _) := .of (.onLru τ f)
theorem incCacheHits (τ : TreeId) : Splits (BT.incCacheHits τ : M K V _) := .of (.onCtl τ _ fun _ => ⟨rfl, rfl, Nat.le_succ _, Nat.le_refl _⟩)
theorem incCacheMisses (τ : TreeId) : Splits (BT.incCacheMisses τ : M K V _) := .of (.onCtl τ _ fun _ => ⟨rfl, rfl, Nat.le_refl _, Nat.le_succ _⟩)
theorem startDrainer (τ : TreeId) : Splits (BT.startDrainer τ : M K V _) := .of (.startDrainer τ)
theorem getNode (r : Ref) : Splits (BT.getNode r : M K V _) := .of (.getNode r)
theorem unpack : Splits (BT.unpack : M K V _) := .of (.unpack)
theorem pack : Splits (BT.pack : M K V _) := .of (.pack)
theorem putNode (d : DiskNode K V) (n : Nat) : Splits (BT.putNode d n : M K V _) := .of (.putNode d n)
theorem discardDisk (r : Ref) : Splits (BT.discardDisk r : M K V _) := .of (.discardDisk r)
theorem ranged (l : List Ref) : Splits (BT.ranged l : M K V _) := .of (.ranged l)
end Splits

/-- One step of a proof of `Splits`; each function adds itself below. -/
syntax "splits1" : tactic
macro_rules | `(tactic| splits1) => `(tactic| dsimp only)
macro_rules | `(tactic| splits1) => `(tactic| with_reducible assumption)
macro_rules | `(tactic| splits1) => `(tactic| intro _)
macro_rules | `(tactic| splits1) => `(tactic| split)
macro_rules | `(tactic| splits1) => `(tactic| with_reducible apply Splits.bind)
macro_rules | `(tactic| splits1) => `(tactic| with_reducible apply Splits.attempt)
macro_rules | `(tactic| splits1) => `(tactic| with_reducible first | exact Splits.pure _ | exact Splits.throw _ | exact Splits.fatal | exact Splits.deref _ | exact Splits.must _ _ | exact Splits.check _ _ | exact Splits.getN _ | exact Splits.getP _ | exact Splits.getT _ | exact Splits.modN _ _ | exact Splits.modP _ _ | exact Splits.modT _ _ | exact Splits.alloc _ | exact Splits.onLru _ _ | exact Splits.incCacheHits _ | exact Splits.incCacheMisses _ | exact Splits.startDrainer _ | exact Splits.getNode _ | exact Splits.unpack | exact Splits.pack | exact Splits.putNode _ _ | exact Splits.discardDisk _ | exact Splits.ranged _)
macro "splits" : tactic => `(tactic| repeat' splits1)

namespace Splits

theorem rootOf (τ : TreeId) : Splits (BT.rootOf τ : M K V Id) := by unfold BT.rootOf; splits
macro_rules | `(tactic| splits1) => `(tactic| with_reducible exact Splits.rootOf _)
theorem kvOf (i : Id) : Splits (BT.kvOf i : M K V _) := by unfold BT.kvOf; splits
macro_rules | `(tactic| splits1) => `(tactic| with_reducible exact Splits.kvOf _)
theorem setKv (i : Id) (t : LLRB.Tree K (Val V)) : Splits (BT.setKv i t) := by unfold BT.setKv; splits
macro_rules | `(tactic| splits1) => `(tactic| with_reducible exact Splits.setKv _ _)
theorem kvLen (i : Id) : Splits (BT.kvLen i : M K V _) := by unfold BT.kvLen; splits
macro_rules | `(tactic| splits1) => `(tactic| with_reducible exact Splits.kvLen _)
theorem kvGetByIndex (i : Id) (n : Int) : Splits (BT.kvGetByIndex i n : M K V _) := by unfold BT.kvGetByIndex; splits
macro_rules | `(tactic| splits1) => `(tactic| with_reducible exact Splits.kvGetByIndex _ _)
theorem kvFinish (i : Id) (r : Option ((Bool × Option Err) × LLRB.Tree K (Val V))) : Splits (BT.kvFinish i r) := by unfold BT.kvFinish; splits
macro_rules | `(tactic| splits1) => `(tactic| with_reducible exact Splits.kvFinish _ _)
theorem kvPut (cmp : Compare K) (i : Id) (k : K) (v : Val V) : Splits (BT.kvPut cmp i k v) := by unfold BT.kvPut; splits
macro_rules | `(tactic| splits1) => `(tactic| with_reducible exact Splits.kvPut _ _ _ _)
theorem kvPutIgnore (cmp : Compare K) (i : Id) (k : K) (v : Val V) : Splits (BT.kvPutIgnore cmp i k v) := by unfold BT.kvPutIgnore; splits
macro_rules | `(tactic| splits1) => `(tactic| with_reducible exact Splits.kvPutIgnore _ _ _ _)
theorem kvDeleteByIndex (cmp : Compare K) (i : Id) (n : Int) : Splits (BT.kvDeleteByIndex cmp i n : M K V _) := by unfold BT.kvDeleteByIndex; splits
macro_rules | `(tactic| splits1) => `(tactic| with_reducible exact Splits.kvDeleteByIndex _ _ _)
theorem liftBisect (r : Option (Int × Bool × Option Err)) : Splits (BT.liftBisect r : M K V _) := by unfold BT.liftBisect; splits
macro_rules | `(tactic| splits1) => `(tactic| with_reducible exact Splits.liftBisect _)
theorem asNode (v : Val V) : Splits (BT.asNode v : M K V _) := by unfold BT.asNode; splits
macro_rules | `(tactic| splits1) => `(tactic| with_reducible exact Splits.asNode _)
theorem asItem (v : Val V) : Splits (BT.asItem v : M K V _) := by unfold BT.asItem; splits
macro_rules | `(tactic| splits1) => `(tactic| with_reducible exact Splits.asItem _)
theorem kvChild (i : Id) (n : Int) : Splits (BT.kvChild i n : M K V _) := by unfold BT.kvChild; splits
macro_rules | `(tactic| splits1) => `(tactic| with_reducible exact Splits.kvChild _ _)
theorem kvChildOk (l : Nat) (i : Id) (n : Int) : Splits (BT.kvChildOk l i n : M K V _) := by unfold BT.kvChildOk; splits
macro_rules | `(tactic| splits1) => `(tactic| with_reducible exact Splits.kvChildOk _ _ _)
theorem initNodeAsEvicted (τ : TreeId) (i : Id) : Splits (BT.initNodeAsEvicted τ i : M K V _) := by unfold BT.initNodeAsEvicted; splits
theorem markNodeUsed (τ : TreeId) (i : Id) : Splits (BT.markNodeUsed τ i : M K V _) := by unfold BT.markNodeUsed; splits
theorem markNodeClean (τ : TreeId) (i : Id) : Splits (BT.markNodeClean τ i : M K V _) := by unfold BT.markNodeClean; splits
theorem placeStale (τ : TreeId) (i : Id) : Splits (BT.placeStale τ i : M K V _) := by unfold BT.placeStale; splits
macro_rules | `(tactic| splits1) => `(tactic| with_reducible exact Splits.placeStale _ _)
theorem markNodeDirty (τ : TreeId) (i : Id) : Splits (BT.markNodeDirty τ i : M K V _) := by unfold BT.markNodeDirty; splits
theorem markNodeEvicted (τ : TreeId) (i : Id) : Splits (BT.markNodeEvicted τ i : M K V _) := by unfold BT.markNodeEvicted; splits
theorem markNodeToBeDiscarded (τ : TreeId) (i : Id) : Splits (BT.markNodeToBeDiscarded τ i : M K V _) := by unfold BT.markNodeToBeDiscarded; splits
macro_rules | `(tactic| splits1) => `(tactic| with_reducible first | exact Splits.initNodeAsEvicted _ _ | exact Splits.markNodeUsed _ _ | exact Splits.markNodeClean _ _ | exact Splits.markNodeDirty _ _ | exact Splits.markNodeEvicted _ _ | exact Splits.markNodeToBeDiscarded _ _)

theorem arrangeRec : ∀ (n : Nat) (l : List Id), Splits (BT.arrangeRec n l : M K V _)
  | 0, _ => by unfold BT.arrangeRec; splits
  | n + 1, l => by
      have ih := arrangeRec n
      unfold BT.arrangeRec
      repeat' first | with_reducible exact ih _ | splits1
macro_rules | `(tactic| splits1) => `(tactic| with_reducible exact Splits.arrangeRec _ _)
theorem resetPs (c : Id) (n : Int) : Splits (BT.resetPs c n : M K V _) := by unfold BT.resetPs; splits
macro_rules | `(tactic| splits1) => `(tactic| with_reducible exact Splits.resetPs _ _)
theorem arrangeLoop (node : Id) : ∀ (i k : Nat), Splits (BT.arrangeLoop node i k : M K V _)
  | _, 0 => by unfold BT.arrangeLoop; splits
  | i, k + 1 => by
      have ih := arrangeLoop node (i + 1) k
      unfold BT.arrangeLoop
      splits
macro_rules | `(tactic| splits1) => `(tactic| with_reducible exact Splits.arrangeLoop _ _ _)
theorem arrangePrefixSumTree (i : Id) : Splits (BT.arrangePrefixSumTree i : M K V _) := by unfold BT.arrangePrefixSumTree; splits
macro_rules | `(tactic| splits1) => `(tactic| with_reducible exact Splits.arrangePrefixSumTree _)
theorem arrangeIgnore (i : Id) : Splits (BT.arrangeIgnore i : M K V _) := by unfold BT.arrangeIgnore; splits
macro_rules | `(tactic| splits1) => `(tactic| with_reducible exact Splits.arrangeIgnore _)
theorem rearrange (τ : TreeId) : ∀ (n : Nat) (i : Id), Splits (BT.rearrangePrefixSumTreeToRoot τ n i : M K V _)
  | 0, _ => by unfold BT.rearrangePrefixSumTreeToRoot; splits
  | n + 1, i => by
      have ih := rearrange τ n
      unfold BT.rearrangePrefixSumTreeToRoot
      repeat' first | with_reducible exact ih _ | splits1
macro_rules | `(tactic| splits1) => `(tactic| with_reducible exact Splits.rearrange _ _ _)
theorem updatePsUp (δ : Int) : ∀ (n : Nat) (i : Id), Splits (BT.updatePsUp δ n i : M K V _)
  | 0, _ => by unfold BT.updatePsUp; splits
  | n + 1, i => by
      have ih := updatePsUp δ n
      unfold BT.updatePsUp
      repeat' first | with_reducible exact ih _ | splits1
macro_rules | `(tactic| splits1) => `(tactic| with_reducible exact Splits.updatePsUp _ _ _)
theorem updateRec (τ : TreeId) (δ : Int) : ∀ (n : Nat) (i : Id), Splits (BT.updateRec τ δ n i : M K V _)
  | 0, _ => by unfold BT.updateRec; splits
  | n + 1, i => by
      have ih := updateRec τ δ n
      unfold BT.updateRec
      repeat' first | with_reducible exact ih _ | splits1
macro_rules | `(tactic| splits1) => `(tactic| with_reducible exact Splits.updateRec _ _ _ _)
theorem update (τ : TreeId) (n : Nat) (i : Id) : Splits (BT.updatePrefixSumTreeLeafToRoot τ n i : M K V _) := by
  unfold BT.updatePrefixSumTreeLeafToRoot; splits
macro_rules | `(tactic| splits1) => `(tactic| with_reducible exact Splits.update _ _ _)
theorem touchUp (τ : TreeId) : ∀ (n : Nat) (i : Id), Splits (BT.touchLoadedNodeToRoot τ n i : M K V _)
  | 0, _ => by unfold BT.touchLoadedNodeToRoot; splits
  | n + 1, i => by
      have ih := touchUp τ n
      unfold BT.touchLoadedNodeToRoot
      repeat' first | with_reducible exact ih _ | splits1
macro_rules | `(tactic| splits1) => `(tactic| with_reducible exact Splits.touchUp _ _ _)

theorem loadLeafLoop (cmp : Compare K) (i : Id) : ∀ l : List (K × V), Splits (BT.loadLeafLoop cmp i l)
  | [] => by unfold BT.loadLeafLoop; splits
  | (k, v) :: l => by
      have ih := loadLeafLoop cmp i l
      unfold BT.loadLeafLoop
      splits
macro_rules | `(tactic| splits1) => `(tactic| with_reducible exact Splits.loadLeafLoop _ _ _)
theorem loadInnerLoop (cmp : Compare K) (τ : TreeId) (i : Id) : ∀ l, Splits (BT.loadInnerLoop cmp τ i l : M K V _)
  | [] => by unfold BT.loadInnerLoop; splits
  | (k, v) :: l => by
      have ih := loadInnerLoop cmp τ i l
      unfold BT.loadInnerLoop
      splits
macro_rules | `(tactic| splits1) => `(tactic| with_reducible exact Splits.loadInnerLoop _ _ _ _)
theorem loadBody (cmp : Compare K) (τ : TreeId) (i : Id) (b : DiskBody K V) : Splits (BT.loadBody cmp τ i b) := by cases b <;> (unfold BT.loadBody; splits)
macro_rules | `(tactic| splits1) => `(tactic| with_reducible exact Splits.loadBody _ _ _ _)
theorem loadMax (τ : TreeId) (d : DiskNode K V) : Splits (BT.loadMax τ d) := by unfold BT.loadMax; splits
macro_rules | `(tactic| splits1) => `(tactic| with_reducible exact Splits.loadMax _ _)
theorem loadNode (cmp : Compare K) (τ : TreeId) (i : Id) : Splits (BT.loadNode cmp τ i : M K V _) := by unfold BT.loadNode; splits
macro_rules | `(tactic| splits1) => `(tactic| with_reducible exact Splits.loadNode _ _ _)
theorem evict (τ : TreeId) (i : Id) : Splits (BT.evict τ i : M K V _) := by unfold BT.evict; splits
macro_rules | `(tactic| splits1) => `(tactic| with_reducible exact Splits.evict _ _)
theorem forChildren (l : Nat) (i : Id) {f : Id → M K V Unit} (hf : ∀ c, Splits (f c)) : ∀ (a k : Nat), Splits (BT.forChildren l i f a k)
  | _, 0 => by unfold BT.forChildren; splits
  | a, k + 1 => by
      have ih := forChildren l i hf (a + 1) k
      unfold BT.forChildren
      repeat' first | with_reducible exact hf _ | splits1
theorem eachChild (l : Nat) (i : Id) {f : Id → M K V Unit} (hf : ∀ c, Splits (f c)) : Splits (BT.eachChild l i f) := by
  have := forChildren l i hf
  unfold BT.eachChild
  repeat' first | with_reducible exact hf _ | with_reducible exact this _ _ | splits1
macro_rules | `(tactic| splits1) => `(tactic| with_reducible apply Splits.eachChild)
theorem purgeNode (τ : TreeId) (full : Bool) : ∀ (n : Nat) (i : Id), Splits (BT.purgeNode τ full n i : M K V _)
  | 0, _ => by unfold BT.purgeNode; splits
  | n + 1, i => by
      have ih := purgeNode τ full n
      unfold BT.purgeNode
      repeat' first | with_reducible exact ih _ | splits1
macro_rules | `(tactic| splits1) => `(tactic| with_reducible exact Splits.purgeNode _ _ _ _)
theorem visit (cmp : Compare K) (τ : TreeId) (m : Bool) (i : Id) : Splits (BT.visit cmp τ m i : M K V _) := by unfold BT.visit; splits
macro_rules | `(tactic| splits1) => `(tactic| with_reducible exact Splits.visit _ _ _ _)
theorem touchNode (cmp : Compare K) (τ : TreeId) : ∀ (n : Nat) (i : Id), Splits (BT.touchNode cmp τ n i : M K V _)
  | 0, _ => by unfold BT.touchNode; splits
  | n + 1, i => by
      have ih := touchNode cmp τ n
      unfold BT.touchNode
      repeat' first | with_reducible exact ih _ | splits1
macro_rules | `(tactic| splits1) => `(tactic| with_reducible exact Splits.touchNode _ _ _ _)
theorem discardNode (cmp : Compare K) (τ : TreeId) : ∀ (n : Nat) (i : Id), Splits (BT.discardNode cmp τ n i : M K V _)
  | 0, _ => by unfold BT.discardNode; splits
  | n + 1, i => by
      have ih := discardNode cmp τ n
      unfold BT.discardNode
      repeat' first | with_reducible exact ih _ | splits1
macro_rules | `(tactic| splits1) => `(tactic| with_reducible exact Splits.discardNode _ _ _ _)

theorem childFor (cmp : Compare K) (i : Id) (k : K) : Splits (BT.childFor cmp i k : M K V _) := by unfold BT.childFor; splits
macro_rules | `(tactic| splits1) => `(tactic| with_reducible exact Splits.childFor _ _ _)
theorem psFind : ∀ (n : Nat) (i : Id) (m : Nat), Splits (BT.psFind n i m : M K V _)
  | 0, _, _ => by unfold BT.psFind; splits
  | n + 1, i, m => by
      have ih := psFind n
      unfold BT.psFind
      repeat' first | with_reducible exact ih _ _ | splits1
macro_rules | `(tactic| splits1) => `(tactic| with_reducible exact Splits.psFind _ _ _)
theorem leftSum (i : Id) : Splits (BT.leftSum i : M K V _) := by unfold BT.leftSum; splits
macro_rules | `(tactic| splits1) => `(tactic| with_reducible exact Splits.leftSum _)
theorem psClimb : ∀ (n : Nat) (i : Id) (s : List Bool), Splits (BT.psClimb n i s : M K V _)
  | 0, _, _ => by unfold BT.psClimb; splits
  | n + 1, i, m => by
      have ih := psClimb n
      unfold BT.psClimb
      repeat' first | with_reducible exact ih _ _ | splits1
macro_rules | `(tactic| splits1) => `(tactic| with_reducible exact Splits.psClimb _ _ _)
theorem psDescend : ∀ (s : List Bool) (i : Id) (n : Nat), Splits (BT.psDescend s i n : M K V _)
  | [], _, _ => by unfold BT.psDescend; splits
  | true :: s, i, m => by
      have ih := psDescend s
      unfold BT.psDescend
      repeat' first | with_reducible exact ih _ _ | splits1
  | false :: s, i, m => by
      have ih := psDescend s
      unfold BT.psDescend
      repeat' first | with_reducible exact ih _ _ | splits1
macro_rules | `(tactic| splits1) => `(tactic| with_reducible exact Splits.psDescend _ _ _)
theorem psDelta (n : Nat) (i c : Id) (m : Nat) : Splits (BT.psDelta n i c m : M K V _) := by unfold BT.psDelta; splits
macro_rules | `(tactic| splits1) => `(tactic| with_reducible exact Splits.psDelta _ _ _ _)
theorem bisectLoop (cmp : Compare K) (τ : TreeId) (f : LLRB.Tree K (Val V) → Option (Int × Bool × Option Err)) (k : K) :
    ∀ (n : Nat) (i : Id) (m : Nat), Splits (BT.bisectLoop cmp τ f k n i m)
  | 0, _, _ => by unfold BT.bisectLoop; splits
  | n + 1, i, m => by
      have ih := bisectLoop cmp τ f k n
      unfold BT.bisectLoop
      repeat' first | with_reducible exact ih _ _ | splits1
macro_rules | `(tactic| splits1) => `(tactic| with_reducible exact Splits.bisectLoop _ _ _ _ _ _ _)
theorem indexDescend (cmp : Compare K) (τ : TreeId) (mk : Bool) : ∀ (n : Nat) (i : Id) (m : Nat) (s : List Int), Splits (BT.indexDescend cmp τ mk n i m s : M K V _)
  | 0, _, _, _ => by unfold BT.indexDescend; splits
  | n + 1, i, m, s => by
      have ih := indexDescend cmp τ mk n
      unfold BT.indexDescend
      repeat' first | with_reducible exact ih _ _ _ | splits1
macro_rules | `(tactic| splits1) => `(tactic| with_reducible exact Splits.indexDescend _ _ _ _ _ _ _)
theorem keyDescend (cmp : Compare K) (τ : TreeId) (mk : Bool) (k : K) : ∀ (n : Nat) (i : Id) (s : List Int), Splits (BT.keyDescend cmp τ mk k n i s : M K V _)
  | 0, _, _ => by unfold BT.keyDescend; splits
  | n + 1, i, s => by
      have ih := keyDescend cmp τ mk k n
      unfold BT.keyDescend
      repeat' first | with_reducible exact ih _ _ | splits1
macro_rules | `(tactic| splits1) => `(tactic| with_reducible exact Splits.keyDescend _ _ _ _ _ _ _)

theorem splitLoop (cmp : Compare K) (mn : Nat) (lf : Bool) (a b : Id) : ∀ n, Splits (BT.splitLoop cmp mn lf a b n : M K V _)
  | 0 => by unfold BT.splitLoop; splits
  | n + 1 => by
      have ih := splitLoop cmp mn lf a b n
      unfold BT.splitLoop
      splits
macro_rules | `(tactic| splits1) => `(tactic| with_reducible exact Splits.splitLoop _ _ _ _ _ _)
theorem growRoot (cmp : Compare K) (τ : TreeId) (a b : Id) (k : K) : Splits (BT.growRoot cmp τ a b k : M K V _) := by unfold BT.growRoot; splits
macro_rules | `(tactic| splits1) => `(tactic| with_reducible exact Splits.growRoot _ _ _ _ _)
theorem splitNode (cmp : Compare K) (τ : TreeId) (a : Id) (n : Nat) : Splits (BT.splitNode cmp τ a n : M K V _) := by unfold BT.splitNode; splits
macro_rules | `(tactic| splits1) => `(tactic| with_reducible exact Splits.splitNode _ _ _ _)
theorem insertHere (cmp : Compare K) (τ : TreeId) (big : Nat) : ∀ (n : Nat) (i : Id) (k : K) (v : Val V), Splits (BT.insertHere cmp τ big n i k v)
  | 0, _, _, _ => by unfold BT.insertHere; splits
  | n + 1, i, k, v => by
      have ih := insertHere cmp τ big n
      unfold BT.insertHere
      repeat' first | with_reducible exact ih _ _ _ | splits1
macro_rules | `(tactic| splits1) => `(tactic| with_reducible exact Splits.insertHere _ _ _ _ _ _ _)

theorem borrowLeftLeaf (cmp : Compare K) (a b c : Id) (m n : Int) : Splits (BT.borrowLeftLeaf cmp a b c m n : M K V _) := by unfold BT.borrowLeftLeaf; splits
macro_rules | `(tactic| splits1) => `(tactic| with_reducible exact Splits.borrowLeftLeaf _ _ _ _ _ _)
theorem borrowLeftInner (cmp : Compare K) (a b c : Id) (m n : Int) : Splits (BT.borrowLeftInner cmp a b c m n : M K V _) := by unfold BT.borrowLeftInner; splits
macro_rules | `(tactic| splits1) => `(tactic| with_reducible exact Splits.borrowLeftInner _ _ _ _ _ _)
theorem borrowLeft (cmp : Compare K) (τ : TreeId) (a b c : Id) (m n : Int) : Splits (BT.borrowLeft cmp τ a b c m n : M K V _) := by unfold BT.borrowLeft; splits
macro_rules | `(tactic| splits1) => `(tactic| with_reducible exact Splits.borrowLeft _ _ _ _ _ _ _)
theorem borrowRightLeaf (cmp : Compare K) (a b c : Id) (m : Int) : Splits (BT.borrowRightLeaf cmp a b c m : M K V _) := by unfold BT.borrowRightLeaf; splits
macro_rules | `(tactic| splits1) => `(tactic| with_reducible exact Splits.borrowRightLeaf _ _ _ _ _)
theorem borrowRightInner (cmp : Compare K) (a b c : Id) (m : Int) : Splits (BT.borrowRightInner cmp a b c m : M K V _) := by unfold BT.borrowRightInner; splits
macro_rules | `(tactic| splits1) => `(tactic| with_reducible exact Splits.borrowRightInner _ _ _ _ _)
theorem borrowRight (cmp : Compare K) (τ : TreeId) (a b c : Id) (m : Int) : Splits (BT.borrowRight cmp τ a b c m : M K V _) := by unfold BT.borrowRight; splits
macro_rules | `(tactic| splits1) => `(tactic| with_reducible exact Splits.borrowRight _ _ _ _ _ _)
theorem reparent (v : Val V) (i : Id) : Splits (BT.reparent v i : M K V _) := by unfold BT.reparent; splits
macro_rules | `(tactic| splits1) => `(tactic| with_reducible exact Splits.reparent _ _)
theorem mergeLoop (cmp : Compare K) (a b : Id) : ∀ (i k : Nat), Splits (BT.mergeLoop cmp a b i k : M K V _)
  | _, 0 => by unfold BT.mergeLoop; splits
  | i, k + 1 => by
      have ih := mergeLoop cmp a b (i + 1) k
      unfold BT.mergeLoop
      splits
macro_rules | `(tactic| splits1) => `(tactic| with_reducible exact Splits.mergeLoop _ _ _ _ _)
theorem mergeInto (cmp : Compare K) (a b c : Id) (n : Int) (lf ch : Bool) : Splits (BT.mergeInto cmp a b c n lf ch : M K V _) := by unfold BT.mergeInto; splits
macro_rules | `(tactic| splits1) => `(tactic| with_reducible exact Splits.mergeInto _ _ _ _ _ _ _)
theorem shrinkRoot (τ : TreeId) (a : Id) : Splits (BT.shrinkRoot τ a : M K V _) := by unfold BT.shrinkRoot; splits
macro_rules | `(tactic| splits1) => `(tactic| with_reducible exact Splits.shrinkRoot _ _)
theorem dropSep (cmp : Compare K) (a b : Id) (n : Int) : Splits (BT.dropSep cmp a b n : M K V _) := by unfold BT.dropSep; splits
macro_rules | `(tactic| splits1) => `(tactic| with_reducible exact Splits.dropSep _ _ _ _)
theorem merge (cmp : Compare K) (τ : TreeId) {m : M K V Unit} (hm : Splits m) (a b c : Id) (n : Int) (lf ch : Bool) : Splits (BT.merge cmp τ m a b c n lf ch) := by
  unfold BT.merge; splits
theorem leftSibling (a : Id) (n : Int) : Splits (BT.leftSibling a n : M K V _) := by unfold BT.leftSibling; splits
macro_rules | `(tactic| splits1) => `(tactic| with_reducible exact Splits.leftSibling _ _)
theorem rightSibling (a : Id) (n : Int) : Splits (BT.rightSibling a n : M K V _) := by unfold BT.rightSibling; splits
macro_rules | `(tactic| splits1) => `(tactic| with_reducible exact Splits.rightSibling _ _)
theorem canLend (cmp : Compare K) (τ : TreeId) (a : Option Id) : Splits (BT.canLend cmp τ a : M K V _) := by unfold BT.canLend; splits
macro_rules | `(tactic| splits1) => `(tactic| with_reducible exact Splits.canLend _ _ _)
theorem rebalanceHere (cmp : Compare K) (τ : TreeId) : ∀ (n : Nat) (i : Id) (s : List Int), Splits (BT.rebalanceHere cmp τ n i s : M K V _)
  | 0, _, _ => by unfold BT.rebalanceHere; splits
  | n + 1, i, s => by
      have ih := rebalanceHere cmp τ n
      unfold BT.rebalanceHere
      repeat' first | with_reducible exact ih _ _ | with_reducible apply Splits.merge | splits1
macro_rules | `(tactic| splits1) => `(tactic| with_reducible exact Splits.rebalanceHere _ _ _ _ _)
theorem withErr {α : Type} (a : α) {m : M K V Unit} (hm : Splits m) : Splits (BT.withErr a m) := by unfold BT.withErr; splits
macro_rules | `(tactic| splits1) => `(tactic| with_reducible apply Splits.withErr)
theorem outOfRange (τ : TreeId) (i : Int) : Splits (BT.outOfRange τ i : M K V _) := by unfold BT.outOfRange; splits
macro_rules | `(tactic| splits1) => `(tactic| with_reducible exact Splits.outOfRange _ _)
theorem afterDelete (cmp : Compare K) (τ : TreeId) (n : Nat) (i : Id) (s : List Int) : Splits (BT.afterDelete cmp τ n i s : M K V _) := by unfold BT.afterDelete; splits
macro_rules | `(tactic| splits1) => `(tactic| with_reducible exact Splits.afterDelete _ _ _ _ _)

theorem validatePrefixSum : ∀ (n : Nat) (i : Id), Splits (BT.validatePrefixSum n i : M K V _)
  | 0, _ => by unfold BT.validatePrefixSum; splits
  | n + 1, i => by
      have ih := validatePrefixSum n
      unfold BT.validatePrefixSum
      repeat' first | with_reducible exact ih _ | splits1
macro_rules | `(tactic| splits1) => `(tactic| with_reducible exact Splits.validatePrefixSum _ _)
theorem validateLoad (cmp : Compare K) (i : Id) : Splits (BT.validateLoad cmp i : M K V _) := by unfold BT.validateLoad; splits
macro_rules | `(tactic| splits1) => `(tactic| with_reducible exact Splits.validateLoad _ _)
theorem kvValidate (i : Id) : Splits (BT.kvValidate i : M K V _) := by unfold BT.kvValidate; splits
macro_rules | `(tactic| splits1) => `(tactic| with_reducible exact Splits.kvValidate _)
theorem valid (l : Nat) (c : Bool) : Splits (BT.valid l c : M K V _) := by unfold BT.valid; splits
macro_rules | `(tactic| splits1) => `(tactic| with_reducible exact Splits.valid _ _)
theorem validateChild (l : Nat) (i : Id) {f : Id → M K V Unit} (hf : ∀ c, Splits (f c)) (c : Id) : Splits (BT.validateChild l i f c) := by
  unfold BT.validateChild
  repeat' first | with_reducible exact hf _ | splits1
theorem validateLoop (i : Id) {f : Id → M K V Unit} (hf : ∀ c, Splits (f c)) : ∀ (a k : Nat), Splits (BT.validateLoop i f a k)
  | _, 0 => by unfold BT.validateLoop; splits
  | a, k + 1 => by
      have ih := validateLoop i hf (a + 1) k
      unfold BT.validateLoop
      repeat' first | with_reducible exact Splits.validateChild _ _ hf _ | splits1
theorem validateNode (cmp : Compare K) : ∀ (n : Nat) (i : Id), Splits (BT.validateNode cmp n i : M K V _)
  | 0, _ => by unfold BT.validateNode; splits
  | n + 1, i => by
      have ih := validateNode cmp n
      unfold BT.validateNode
      repeat' first | with_reducible exact Splits.validateChild _ _ ih _ | with_reducible exact Splits.validateLoop _ ih _ _ | splits1
macro_rules | `(tactic| splits1) => `(tactic| with_reducible exact Splits.validateNode _ _ _)

theorem step (cmp : Compare K) (τ : TreeId) (n : Nat) (op : Spec.Op K V) : Splits (BT.step cmp τ n op) := by
  cases op <;> simp only [BT.step, BT.put, BT.getByKey, BT.getByIndex, BT.patchByKey, BT.patchByIndex, BT.deleteByKey, BT.deleteByIndex, BT.bisectLeft,
    BT.bisectRight, BT.len, BT.validate] <;> splits

theorem fetchLocation (τ : TreeId) : Splits (BT.fetchLocation τ : M K V _) := by unfold BT.fetchLocation; splits
macro_rules | `(tactic| splits1) => `(tactic| with_reducible exact Splits.fetchLocation _)
mutual
theorem updateLayoutReport (cmp : Compare K) (τ : TreeId) : ∀ (n : Nat) (i : Id) (m : Layout), Splits (BT.updateLayoutReport cmp τ n i m : M K V _)
  | 0, _, _ => by unfold BT.updateLayoutReport; splits
  | n + 1, i, m => by
      have ih := updateLayoutReport cmp τ n
      have ih2 := layoutLoop cmp τ n
      unfold BT.updateLayoutReport
      repeat' first | with_reducible exact ih _ _ | with_reducible exact ih2 _ _ _ _ | splits1
theorem layoutLoop (cmp : Compare K) (τ : TreeId) : ∀ (n : Nat) (i : Id) (a k : Nat) (m : Layout), Splits (BT.layoutLoop cmp τ n i a k m : M K V _)
  | _, _, _, 0, _ => by unfold BT.layoutLoop; splits
  | n, i, a, k + 1, m => by
      have ih := updateLayoutReport cmp τ n
      have ih2 := fun a m => layoutLoop cmp τ n i a k m
      unfold BT.layoutLoop
      repeat' first | with_reducible exact ih _ _ | with_reducible exact ih2 _ _ | splits1
end
theorem fetchLayoutReport (cmp : Compare K) (τ : TreeId) (n : Nat) : Splits (BT.fetchLayoutReport cmp τ n : M K V _) := by
  unfold BT.fetchLayoutReport
  repeat' first | with_reducible exact updateLayoutReport _ _ _ _ _ | splits1
theorem dimLoop (cmp : Compare K) (τ : TreeId) : ∀ (n : Nat) (i : Id) (d : Dimensions), Splits (BT.dimLoop cmp τ n i d : M K V _)
  | 0, _, _ => by unfold BT.dimLoop; splits
  | n + 1, i, d => by
      have ih := dimLoop cmp τ n
      unfold BT.dimLoop
      dsimp only
      repeat' first | with_reducible exact ih _ _ | splits1
theorem fetchDimensionsReport (cmp : Compare K) (τ : TreeId) (n : Nat) : Splits (BT.fetchDimensionsReport cmp τ n : M K V _) := by
  unfold BT.fetchDimensionsReport
  repeat' first | with_reducible exact dimLoop _ _ _ _ _ | splits1
theorem purge (τ : TreeId) (n : Nat) (full : Bool) : Splits (BT.purge τ n full : M K V _) := by unfold BT.purge; splits
theorem touch (cmp : Compare K) (τ : TreeId) (n : Nat) : Splits (BT.touch cmp τ n : M K V _) := by unfold BT.touch; splits
theorem touchItem (cmp : Compare K) (τ : TreeId) (n k : Nat) : Splits (BT.touchItem cmp τ n k : M K V _) := by unfold BT.touchItem; splits
theorem newBPlusTree (τ : TreeId) (n : Nat) (c : Bool) : Splits (BT.newBPlusTree τ n c : M K V _) := by unfold BT.newBPlusTree; splits
theorem oldBPlusTree (cmp : Compare K) (τ : TreeId) (r : Ref) (c : Bool) : Splits (BT.oldBPlusTree cmp τ r c : M K V _) := by unfold BT.oldBPlusTree; splits
theorem postLeafLoop (i : Id) : ∀ (a k : Nat), Splits (BT.postLeafLoop i a k : M K V _)
  | _, 0 => by unfold BT.postLeafLoop; splits
  | a, k + 1 => by
      have ih := postLeafLoop i (a + 1) k
      unfold BT.postLeafLoop
      splits
theorem postRef (l : Nat) (i : Id) : Splits (BT.postRef l i : M K V _) := by unfold BT.postRef; splits
macro_rules | `(tactic| splits1) => `(tactic| with_reducible first | exact Splits.postRef _ _ | exact Splits.postLeafLoop _ _ _)
theorem postInnerLoop (i : Id) : ∀ (a k : Nat), Splits (BT.postInnerLoop i a k : M K V _)
  | _, 0 => by unfold BT.postInnerLoop; splits
  | a, k + 1 => by
      have ih := postInnerLoop i (a + 1) k
      unfold BT.postInnerLoop
      splits
macro_rules | `(tactic| splits1) => `(tactic| with_reducible exact Splits.postInnerLoop _ _ _)
theorem postBody (i : Id) : Splits (BT.postBody i : M K V _) := by unfold BT.postBody; splits
macro_rules | `(tactic| splits1) => `(tactic| with_reducible exact Splits.postBody _)

theorem postNode (size : DiskNode K V → Nat) (τ : TreeId) (i : Id) : Splits (BT.postNode size τ i) := by
  unfold BT.postNode
  splits
macro_rules | `(tactic| splits1) => `(tactic| with_reducible exact Splits.postNode _ _ _)
theorem flushNode (size : DiskNode K V → Nat) (τ : TreeId) (p : Bool) : ∀ (n : Nat) (i : Id), Splits (BT.flushNode size τ p n i)
  | 0, _ => by unfold BT.flushNode; splits
  | n + 1, i => by
      have ih := flushNode size τ p n
      unfold BT.flushNode
      repeat' first | with_reducible exact Splits.eachChild _ _ ih | splits1
theorem flush (size : DiskNode K V → Nat) (τ : TreeId) (n : Nat) (p : Bool) : Splits (BT.flush size τ n p) := by
  unfold BT.flush
  repeat' first | with_reducible exact Splits.flushNode _ _ _ _ _ | splits1
theorem pruneLoop : ∀ l, Splits (BT.pruneLoop l : M K V _)
  | [] => by unfold BT.pruneLoop; splits
  | r :: l => by
      have ih := pruneLoop l
      unfold BT.pruneLoop
      splits
macro_rules | `(tactic| splits1) => `(tactic| with_reducible exact Splits.pruneLoop _)
theorem pruneWhileLocked (τ : TreeId) : Splits (BT.pruneWhileLocked τ : M K V _) := by unfold BT.pruneWhileLocked; splits
macro_rules | `(tactic| splits1) => `(tactic| with_reducible exact Splits.pruneWhileLocked _)
theorem prune (τ : TreeId) : Splits (BT.prune τ : M K V _) := by unfold BT.prune; splits
theorem discard (cmp : Compare K) (τ : TreeId) (n : Nat) : Splits (BT.discard cmp τ n : M K V _) := by unfold BT.discard; splits
theorem drainerEvict_eq (n : Nat) (i : Id) : (BT.drainerEvict n i : M K V Unit) = (do
      let tag ← (fun w => (Out.ok (w.lru.el i).tag, w) : M K V Tag)
      if tag ≠ .cleanLRU then Pure.pure () else do
        let nd ← BT.getN i
        match ← M.attempt (BT.purgeNode nd.tree true n i) with
        | .ok () => Pure.pure ()
        | .error _ => M.fatal) := by
  funext w
  unfold BT.drainerEvict
  show _ = M.bind _ _ w
  simp only [M.bind]
  split
  · rfl
  · show _ = M.bind _ _ w
    simp only [M.bind]
    show _ = M.bind _ _ w
    simp only [M.bind, M.attempt]
    rcases BT.purgeNode (w.node i).tree true n i w with ⟨_ | _ | _, w'⟩ <;> rfl
theorem drainerEvict (n : Nat) (i : Id) : Splits (BT.drainerEvict n i : M K V _) := by
  rw [drainerEvict_eq]
  refine bind (of (.tagOf i)) fun tag => ?_
  splits
theorem reply_eq {α : Type} (f : α → Api.Reply K V) (m : M K V α) : BT.reply f m = m >>= fun a => Pure.pure (f a) := by
  funext w
  show _ = M.bind _ _ w
  rw [M.bind, BT.reply]
  rcases m w with ⟨_ | _ | _, w'⟩ <;> rfl
theorem reply {α : Type} (f : α → Api.Reply K V) {m : M K V α} (h : Splits m) : Splits (BT.reply f m) := by
  rw [reply_eq]
  exact bind h fun _ => pure _

/-- Every call under the mutex of a map can be cut into basic actions; Dump is left out, which reads the cache's fields without its mutex. -/
theorem exec (size : DiskNode K V → Nat) (cfg : TreeId → Par K) (n : Nat) (c : Api.Call K V) (h1 : ∀ a b, c ≠ .limits a b) (h2 : c ≠ .restart) (h3 : ∀ t cb, c ≠ .dump t cb) :
    Splits (BT.exec size cfg n c) := by
  cases c with
  | limits a b => exact absurd rfl (h1 a b)
  | restart => exact absurd rfl h2
  | dump t cb => exact absurd rfl (h3 t cb)
  | op t o => exact reply _ (step _ _ _ _)
  | flush t p => exact reply _ (flush _ _ _ _)
  | purge t p => exact reply _ (purge _ _ _)
  | touch t => exact reply _ (touch _ _ _)
  | touchItem t i => exact reply _ (touchItem _ _ _ _)
  | prune t => exact reply _ (prune _)
  | discard t => exact reply _ (discard _ _ _)
  | layout t => exact reply _ (fetchLayoutReport _ _ _)
  | dimensions t => exact reply _ (fetchDimensionsReport _ _ _)
  | location t => exact reply _ (fetchLocation _)
  | new t => exact reply _ (newBPlusTree _ _ _)
  | old t r => exact reply _ (oldBPlusTree _ _ _ _)
  | evict x => exact reply _ (drainerEvict _ _)

end Splits

end SM.BT

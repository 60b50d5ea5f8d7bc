import Verif.BTree.Drainer

/-! Which calls keep the cache within its high limit, in whatever state they are made: those that neither mark a node dirty nor drop one. -/

namespace SM.BT

variable {K V : Type}

/-- The cache holds as many nodes as before, the limit is as before and a drainer is active if it was; or a drainer is active; or the limit is kept. -/
def Within (w w' : World K V) : Prop :=
  (w'.lru.clean.items = w.lru.clean.items ∧ w'.lru.dirty.items = w.lru.dirty.items ∧ w'.ctl.high = w.ctl.high ∧ w'.ctl.active = w.ctl.active) ∨
  w'.ctl.active = true ∨ w'.lru.clean.items + w'.lru.dirty.items ≤ w'.ctl.high

theorem Within.refl (w : World K V) : Within w w := .inl ⟨rfl, rfl, rfl, rfl⟩
theorem Within.of {w w' : World K V} (h1 : w'.lru = w.lru) (h2 : w'.ctl = w.ctl) : Within w w' := .inl (by rw [h1, h2]; exact ⟨rfl, rfl, rfl, rfl⟩)
theorem Within.trans {a b c : World K V} (h : Within a b) (g : Within b c) : Within a c := by
  rcases g with ⟨g1, g2, g3, g4⟩ | g
  · unfold Within at *
    rw [g1, g2, g3, g4]
    exact h
  · exact .inr g

theorem LruS.setLst_items {s : LruS} {d : Bool} {l : LruList} (h : l.items = (s.lst d).items) :
    (s.setLst d l).clean.items = s.clean.items ∧ (s.setLst d l).dirty.items = s.dirty.items := by
  cases d
  · exact ⟨h, rfl⟩
  · exact ⟨rfl, h⟩

theorem LruS.moveToTail_items {s s' : LruS} {d : Bool} {x : Id} (h : s.moveToTail d x = some s') : s'.clean.items = s.clean.items ∧ s'.dirty.items = s.dirty.items := by
  unfold LruS.moveToTail at h
  dsimp only at h
  split at h
  · cases h; exact ⟨rfl, rfl⟩
  split at h
  · split at h
    · cases h
      cases d <;> exact ⟨rfl, rfl⟩
    · cases h
  · split at h
    · cases h
      cases d <;> exact ⟨rfl, rfl⟩
    · cases h

/-- In any state, the action keeps the limit, if it was kept. -/
structure Tame {α : Type} (m : M K V α) : Prop where
  run : ∀ w, Within w (m w).2

namespace Tame
variable {α β : Type}

theorem bind {m : M K V α} {f : α → M K V β} (h : Tame m) (g : ∀ a, Tame (f a)) : Tame (m >>= f) := by
  refine ⟨fun w => ?_⟩
  show Within w (M.bind m f w).2
  have := h.run w
  unfold M.bind
  rcases hm : m w with ⟨_ | _ | _, w'⟩ <;> rw [hm] at this <;> simp only at this ⊢
  · exact this.trans ((g _).run _)
  · exact this
  · exact this
theorem attempt {m : M K V α} (h : Tame m) : Tame (M.attempt m) := by
  refine ⟨fun w => ?_⟩
  have := h.run w
  unfold M.attempt
  rcases hm : m w with ⟨_ | _ | _, w'⟩ <;> rw [hm] at this <;> exact this
theorem pure (a : α) : Tame (Pure.pure a : M K V α) := ⟨fun w => .refl w⟩
theorem throw (e : Err) : Tame (M.throw e : M K V α) := ⟨fun w => .refl w⟩
theorem fatal : Tame (M.fatal : M K V α) := ⟨fun w => .refl w⟩
theorem deref (a : Option α) : Tame (M.deref a : M K V α) := by cases a <;> exact ⟨fun w => .refl w⟩
theorem must (n : Nat) (a : Option α) : Tame (M.must n a : M K V α) := by cases a <;> exact ⟨fun w => .refl w⟩
theorem check (n : Nat) (b : Bool) : Tame (M.check n b : M K V Unit) := by cases b <;> exact ⟨fun w => .refl w⟩
theorem getN (i : Id) : Tame (BT.getN i : M K V _) := ⟨fun w => .refl w⟩
theorem getP (i : Id) : Tame (BT.getP i : M K V _) := ⟨fun w => .refl w⟩
theorem getT (i : TreeId) : Tame (BT.getT i : M K V _) := ⟨fun w => .refl w⟩
theorem modN (i : Id) (f : NodeS K V → NodeS K V) : Tame (BT.modN i f) := ⟨fun _ => .of rfl rfl⟩
theorem modP (i : Id) (f : PSum → PSum) : Tame (BT.modP i f : M K V Unit) := ⟨fun _ => .of rfl rfl⟩
theorem modT (i : TreeId) (f : TreeS → TreeS) : Tame (BT.modT i f : M K V Unit) := ⟨fun _ => .of rfl rfl⟩
theorem alloc (n : NodeS K V) : Tame (BT.alloc n) := ⟨fun _ => .inl ⟨rfl, rfl, rfl, rfl⟩⟩
theorem getNode (r : Ref) : Tame (BT.getNode r : M K V _) := by
  refine ⟨fun w => ?_⟩
  unfold BT.getNode
  dsimp only
  split
  · exact .of rfl rfl
  · split <;> exact .of rfl rfl
theorem unpack : Tame (BT.unpack : M K V _) := by
  refine ⟨fun w => ?_⟩
  unfold BT.unpack
  dsimp only
  split <;> exact .of rfl rfl
theorem pack : Tame (BT.pack : M K V _) := by
  refine ⟨fun w => ?_⟩
  unfold BT.pack
  dsimp only
  split <;> exact .of rfl rfl
theorem putNode (d : DiskNode K V) (n : Nat) : Tame (BT.putNode d n) := by
  refine ⟨fun w => ?_⟩
  unfold BT.putNode
  dsimp only
  split
  · exact .of rfl rfl
  · split <;> exact .of rfl rfl
theorem onLru (τ : TreeId) (f : LruS → Option LruS) (hf : ∀ s s', f s = some s' → s'.clean.items = s.clean.items ∧ s'.dirty.items = s.dirty.items) :
    Tame (BT.onLru τ f : M K V Unit) := by
  refine ⟨fun w => ?_⟩
  unfold BT.onLru
  split
  · split
    · rename_i h
      exact .inl ⟨(hf _ _ h).1, (hf _ _ h).2, rfl, rfl⟩
    · exact .refl w
  · exact .refl w
theorem onCtl (τ : TreeId) (f : Ctl → Ctl) (hf : ∀ c, (f c).active = c.active ∧ (f c).high = c.high) : Tame (BT.onCtl τ f : M K V Unit) := by
  refine ⟨fun w => ?_⟩
  unfold BT.onCtl
  split
  · exact .inl ⟨rfl, rfl, (hf _).2, (hf _).1⟩
  · exact .refl w

end Tame

/-- One step of a proof of `Tame`; each function adds itself below. -/
syntax "tame1" : tactic
macro_rules | `(tactic| tame1) => `(tactic| dsimp only)
macro_rules | `(tactic| tame1) => `(tactic| with_reducible assumption)
macro_rules | `(tactic| tame1) => `(tactic| intro _)
macro_rules | `(tactic| tame1) => `(tactic| split)
macro_rules | `(tactic| tame1) => `(tactic| with_reducible apply Tame.bind)
macro_rules | `(tactic| tame1) => `(tactic| with_reducible apply Tame.attempt)
macro_rules | `(tactic| tame1) => `(tactic| with_reducible first | exact Tame.pure _ | exact Tame.throw _ | exact Tame.fatal | exact Tame.deref _ | exact Tame.must _ _ | exact Tame.check _ _ | exact Tame.getN _ | exact Tame.getP _ | exact Tame.getT _ | exact Tame.modN _ _ | exact Tame.modP _ _ | exact Tame.modT _ _ | exact Tame.alloc _ | exact Tame.getNode _ | exact Tame.unpack | exact Tame.pack | exact Tame.putNode _ _)
macro "tame" : tactic => `(tactic| repeat' tame1)

namespace Tame

theorem rootOf (τ : TreeId) : Tame (BT.rootOf τ : M K V Id) := by unfold BT.rootOf; tame
macro_rules | `(tactic| tame1) => `(tactic| with_reducible exact Tame.rootOf _)
theorem kvOf (i : Id) : Tame (BT.kvOf i : M K V _) := by unfold BT.kvOf; tame
macro_rules | `(tactic| tame1) => `(tactic| with_reducible exact Tame.kvOf _)
theorem setKv (i : Id) (t : LLRB.Tree K (Val V)) : Tame (BT.setKv i t) := by unfold BT.setKv; tame
macro_rules | `(tactic| tame1) => `(tactic| with_reducible exact Tame.setKv _ _)
theorem kvLen (i : Id) : Tame (BT.kvLen i : M K V _) := by unfold BT.kvLen; tame
macro_rules | `(tactic| tame1) => `(tactic| with_reducible exact Tame.kvLen _)
theorem kvGetByIndex (i : Id) (n : Int) : Tame (BT.kvGetByIndex i n : M K V _) := by unfold BT.kvGetByIndex; tame
macro_rules | `(tactic| tame1) => `(tactic| with_reducible exact Tame.kvGetByIndex _ _)
theorem kvFinish (i : Id) (r : Option ((Bool × Option Err) × LLRB.Tree K (Val V))) : Tame (BT.kvFinish i r) := by unfold BT.kvFinish; tame
macro_rules | `(tactic| tame1) => `(tactic| with_reducible exact Tame.kvFinish _ _)
theorem kvPut (cmp : Compare K) (i : Id) (k : K) (v : Val V) : Tame (BT.kvPut cmp i k v) := by unfold BT.kvPut; tame
macro_rules | `(tactic| tame1) => `(tactic| with_reducible exact Tame.kvPut _ _ _ _)
theorem kvPutIgnore (cmp : Compare K) (i : Id) (k : K) (v : Val V) : Tame (BT.kvPutIgnore cmp i k v) := by unfold BT.kvPutIgnore; tame
macro_rules | `(tactic| tame1) => `(tactic| with_reducible exact Tame.kvPutIgnore _ _ _ _)
theorem liftBisect (r : Option (Int × Bool × Option Err)) : Tame (BT.liftBisect r : M K V _) := by unfold BT.liftBisect; tame
macro_rules | `(tactic| tame1) => `(tactic| with_reducible exact Tame.liftBisect _)
theorem asNode (v : Val V) : Tame (BT.asNode v : M K V _) := by unfold BT.asNode; tame
macro_rules | `(tactic| tame1) => `(tactic| with_reducible exact Tame.asNode _)
theorem asItem (v : Val V) : Tame (BT.asItem v : M K V _) := by unfold BT.asItem; tame
macro_rules | `(tactic| tame1) => `(tactic| with_reducible exact Tame.asItem _)
theorem kvChild (i : Id) (n : Int) : Tame (BT.kvChild i n : M K V _) := by unfold BT.kvChild; tame
macro_rules | `(tactic| tame1) => `(tactic| with_reducible exact Tame.kvChild _ _)
theorem kvChildOk (l : Nat) (i : Id) (n : Int) : Tame (BT.kvChildOk l i n : M K V _) := by unfold BT.kvChildOk; tame
macro_rules | `(tactic| tame1) => `(tactic| with_reducible exact Tame.kvChildOk _ _ _)
theorem initNodeAsEvicted (τ : TreeId) (i : Id) : Tame (BT.initNodeAsEvicted τ i : M K V _) :=
  onLru τ _ fun s s' h => by
    by_cases ht : (s.el i).tag = .noLRU
    · rw [if_pos ht] at h; cases h; exact ⟨rfl, rfl⟩
    · rw [if_neg ht] at h; cases h
theorem incCacheHits (τ : TreeId) : Tame (BT.incCacheHits τ : M K V _) := onCtl τ _ fun _ => ⟨rfl, rfl⟩
theorem incCacheMisses (τ : TreeId) : Tame (BT.incCacheMisses τ : M K V _) := onCtl τ _ fun _ => ⟨rfl, rfl⟩
theorem markNodeUsed (τ : TreeId) (i : Id) : Tame (BT.markNodeUsed τ i : M K V _) := by
  refine onLru τ _ fun s s' h => ?_
  unfold LruS.used at h
  split at h
  · cases h
  · exact LruS.moveToTail_items h
  · exact LruS.moveToTail_items h
theorem markNodeClean (τ : TreeId) (i : Id) : Tame (BT.markNodeClean τ i : M K V _) := by
  refine bind (modN _ _) fun _ => ⟨fun w => ?_⟩
  show Within w (M.bind _ _ w).2
  unfold M.bind BT.onLru
  by_cases hc : (w.trees τ).cached = true
  · rw [if_pos hc]
    cases hp : w.lru.place false i with
    | none => simp only [hp]; exact .refl _
    | some s =>
      simp only [hp]
      unfold startDrainer BT.onCtl
      rw [if_pos (show (World.trees _ τ).cached = true from hc)]
      refine .inr ?_
      dsimp only
      split
      · exact .inl rfl
      · rename_i h
        simp only [Bool.and_eq_true, Bool.not_eq_true', decide_eq_true_eq, not_and, not_lt] at h
        cases ha : w.ctl.active with
        | true => exact .inl rfl
        | false => exact .inr (h ha)
  · rw [if_neg hc]
    dsimp only
    unfold startDrainer BT.onCtl
    rw [if_neg hc]
    exact .refl _
macro_rules | `(tactic| tame1) => `(tactic| with_reducible first | exact Tame.initNodeAsEvicted _ _ | exact Tame.incCacheHits _ | exact Tame.incCacheMisses _ | exact Tame.markNodeUsed _ _ | exact Tame.markNodeClean _ _)
theorem arrangeRec : ∀ (n : Nat) (l : List Id), Tame (BT.arrangeRec n l : M K V _)
  | 0, _ => by unfold BT.arrangeRec; tame
  | n + 1, l => by
      have ih := arrangeRec n
      unfold BT.arrangeRec
      repeat' first | with_reducible exact ih _ | tame1
macro_rules | `(tactic| tame1) => `(tactic| with_reducible exact Tame.arrangeRec _ _)
theorem resetPs (c : Id) (n : Int) : Tame (BT.resetPs c n : M K V _) := by unfold BT.resetPs; tame
macro_rules | `(tactic| tame1) => `(tactic| with_reducible exact Tame.resetPs _ _)
theorem arrangeLoop (node : Id) : ∀ (i k : Nat), Tame (BT.arrangeLoop node i k : M K V _)
  | _, 0 => by unfold BT.arrangeLoop; tame
  | i, k + 1 => by
      have ih := arrangeLoop node (i + 1) k
      unfold BT.arrangeLoop
      tame
macro_rules | `(tactic| tame1) => `(tactic| with_reducible exact Tame.arrangeLoop _ _ _)
theorem arrangePrefixSumTree (i : Id) : Tame (BT.arrangePrefixSumTree i : M K V _) := by unfold BT.arrangePrefixSumTree; tame
macro_rules | `(tactic| tame1) => `(tactic| with_reducible exact Tame.arrangePrefixSumTree _)
theorem arrangeIgnore (i : Id) : Tame (BT.arrangeIgnore i : M K V _) := by unfold BT.arrangeIgnore; tame
macro_rules | `(tactic| tame1) => `(tactic| with_reducible exact Tame.arrangeIgnore _)
theorem loadLeafLoop (cmp : Compare K) (i : Id) : ∀ l : List (K × V), Tame (BT.loadLeafLoop cmp i l)
  | [] => by unfold BT.loadLeafLoop; tame
  | (k, v) :: l => by
      have ih := loadLeafLoop cmp i l
      unfold BT.loadLeafLoop
      tame
macro_rules | `(tactic| tame1) => `(tactic| with_reducible exact Tame.loadLeafLoop _ _ _)
theorem loadInnerLoop (cmp : Compare K) (τ : TreeId) (i : Id) : ∀ l, Tame (BT.loadInnerLoop cmp τ i l : M K V _)
  | [] => by unfold BT.loadInnerLoop; tame
  | (k, v) :: l => by
      have ih := loadInnerLoop cmp τ i l
      unfold BT.loadInnerLoop
      tame
macro_rules | `(tactic| tame1) => `(tactic| with_reducible exact Tame.loadInnerLoop _ _ _ _)
theorem loadBody (cmp : Compare K) (τ : TreeId) (i : Id) (b : DiskBody K V) : Tame (BT.loadBody cmp τ i b) := by cases b <;> (unfold BT.loadBody; tame)
macro_rules | `(tactic| tame1) => `(tactic| with_reducible exact Tame.loadBody _ _ _ _)
theorem loadMax (τ : TreeId) (d : DiskNode K V) : Tame (BT.loadMax τ d) := by unfold BT.loadMax; tame
macro_rules | `(tactic| tame1) => `(tactic| with_reducible exact Tame.loadMax _ _)
theorem loadNode (cmp : Compare K) (τ : TreeId) (i : Id) : Tame (BT.loadNode cmp τ i : M K V _) := by unfold BT.loadNode; tame
macro_rules | `(tactic| tame1) => `(tactic| with_reducible exact Tame.loadNode _ _ _)
theorem forChildren (l : Nat) (i : Id) {f : Id → M K V Unit} (hf : ∀ c, Tame (f c)) : ∀ (a k : Nat), Tame (BT.forChildren l i f a k)
  | _, 0 => by unfold BT.forChildren; tame
  | a, k + 1 => by
      have ih := forChildren l i hf (a + 1) k
      unfold BT.forChildren
      repeat' first | with_reducible exact hf _ | tame1
theorem eachChild (l : Nat) (i : Id) {f : Id → M K V Unit} (hf : ∀ c, Tame (f c)) : Tame (BT.eachChild l i f) := by
  have := forChildren l i hf
  unfold BT.eachChild
  repeat' first | with_reducible exact hf _ | with_reducible exact this _ _ | tame1
macro_rules | `(tactic| tame1) => `(tactic| with_reducible apply Tame.eachChild)
theorem visit (cmp : Compare K) (τ : TreeId) (m : Bool) (i : Id) : Tame (BT.visit cmp τ m i : M K V _) := by unfold BT.visit; tame
macro_rules | `(tactic| tame1) => `(tactic| with_reducible exact Tame.visit _ _ _ _)
theorem childFor (cmp : Compare K) (i : Id) (k : K) : Tame (BT.childFor cmp i k : M K V _) := by unfold BT.childFor; tame
macro_rules | `(tactic| tame1) => `(tactic| with_reducible exact Tame.childFor _ _ _)
theorem psFind : ∀ (n : Nat) (i : Id) (m : Nat), Tame (BT.psFind n i m : M K V _)
  | 0, _, _ => by unfold BT.psFind; tame
  | n + 1, i, m => by
      have ih := psFind n
      unfold BT.psFind
      repeat' first | with_reducible exact ih _ _ | tame1
macro_rules | `(tactic| tame1) => `(tactic| with_reducible exact Tame.psFind _ _ _)
theorem leftSum (i : Id) : Tame (BT.leftSum i : M K V _) := by unfold BT.leftSum; tame
macro_rules | `(tactic| tame1) => `(tactic| with_reducible exact Tame.leftSum _)
theorem psClimb : ∀ (n : Nat) (i : Id) (s : List Bool), Tame (BT.psClimb n i s : M K V _)
  | 0, _, _ => by unfold BT.psClimb; tame
  | n + 1, i, m => by
      have ih := psClimb n
      unfold BT.psClimb
      repeat' first | with_reducible exact ih _ _ | tame1
macro_rules | `(tactic| tame1) => `(tactic| with_reducible exact Tame.psClimb _ _ _)
theorem psDescend : ∀ (s : List Bool) (i : Id) (n : Nat), Tame (BT.psDescend s i n : M K V _)
  | [], _, _ => by unfold BT.psDescend; tame
  | true :: s, i, m => by
      have ih := psDescend s
      unfold BT.psDescend
      repeat' first | with_reducible exact ih _ _ | tame1
  | false :: s, i, m => by
      have ih := psDescend s
      unfold BT.psDescend
      repeat' first | with_reducible exact ih _ _ | tame1
macro_rules | `(tactic| tame1) => `(tactic| with_reducible exact Tame.psDescend _ _ _)
theorem psDelta (n : Nat) (i c : Id) (m : Nat) : Tame (BT.psDelta n i c m : M K V _) := by unfold BT.psDelta; tame
macro_rules | `(tactic| tame1) => `(tactic| with_reducible exact Tame.psDelta _ _ _ _)
theorem bisectLoop (cmp : Compare K) (τ : TreeId) (f : LLRB.Tree K (Val V) → Option (Int × Bool × Option Err)) (k : K) :
    ∀ (n : Nat) (i : Id) (m : Nat), Tame (BT.bisectLoop cmp τ f k n i m)
  | 0, _, _ => by unfold BT.bisectLoop; tame
  | n + 1, i, m => by
      have ih := bisectLoop cmp τ f k n
      unfold BT.bisectLoop
      repeat' first | with_reducible exact ih _ _ | tame1
macro_rules | `(tactic| tame1) => `(tactic| with_reducible exact Tame.bisectLoop _ _ _ _ _ _ _)
theorem indexDescend (cmp : Compare K) (τ : TreeId) (mk : Bool) : ∀ (n : Nat) (i : Id) (m : Nat) (s : List Int), Tame (BT.indexDescend cmp τ mk n i m s : M K V _)
  | 0, _, _, _ => by unfold BT.indexDescend; tame
  | n + 1, i, m, s => by
      have ih := indexDescend cmp τ mk n
      unfold BT.indexDescend
      repeat' first | with_reducible exact ih _ _ _ | tame1
macro_rules | `(tactic| tame1) => `(tactic| with_reducible exact Tame.indexDescend _ _ _ _ _ _ _)
theorem keyDescend (cmp : Compare K) (τ : TreeId) (mk : Bool) (k : K) : ∀ (n : Nat) (i : Id) (s : List Int), Tame (BT.keyDescend cmp τ mk k n i s : M K V _)
  | 0, _, _ => by unfold BT.keyDescend; tame
  | n + 1, i, s => by
      have ih := keyDescend cmp τ mk k n
      unfold BT.keyDescend
      repeat' first | with_reducible exact ih _ _ | tame1
macro_rules | `(tactic| tame1) => `(tactic| with_reducible exact Tame.keyDescend _ _ _ _ _ _ _)

theorem validatePrefixSum : ∀ (n : Nat) (i : Id), Tame (BT.validatePrefixSum n i : M K V _)
  | 0, _ => by unfold BT.validatePrefixSum; tame
  | n + 1, i => by
      have ih := validatePrefixSum n
      unfold BT.validatePrefixSum
      repeat' first | with_reducible exact ih _ | tame1
macro_rules | `(tactic| tame1) => `(tactic| with_reducible exact Tame.validatePrefixSum _ _)
theorem validateLoad (cmp : Compare K) (i : Id) : Tame (BT.validateLoad cmp i : M K V _) := by unfold BT.validateLoad; tame
macro_rules | `(tactic| tame1) => `(tactic| with_reducible exact Tame.validateLoad _ _)
theorem kvValidate (i : Id) : Tame (BT.kvValidate i : M K V _) := by unfold BT.kvValidate; tame
macro_rules | `(tactic| tame1) => `(tactic| with_reducible exact Tame.kvValidate _)
theorem valid (l : Nat) (c : Bool) : Tame (BT.valid l c : M K V _) := by unfold BT.valid; tame
macro_rules | `(tactic| tame1) => `(tactic| with_reducible exact Tame.valid _ _)
theorem validateChild (l : Nat) (i : Id) {f : Id → M K V Unit} (hf : ∀ c, Tame (f c)) (c : Id) : Tame (BT.validateChild l i f c) := by
  unfold BT.validateChild
  repeat' first | with_reducible exact hf _ | tame1
theorem validateLoop (i : Id) {f : Id → M K V Unit} (hf : ∀ c, Tame (f c)) : ∀ (a k : Nat), Tame (BT.validateLoop i f a k)
  | _, 0 => by unfold BT.validateLoop; tame
  | a, k + 1 => by
      have ih := validateLoop i hf (a + 1) k
      unfold BT.validateLoop
      repeat' first | with_reducible exact Tame.validateChild _ _ hf _ | tame1
theorem validateNode (cmp : Compare K) : ∀ (n : Nat) (i : Id), Tame (BT.validateNode cmp n i : M K V _)
  | 0, _ => by unfold BT.validateNode; tame
  | n + 1, i => by
      have ih := validateNode cmp n
      unfold BT.validateNode
      repeat' first | with_reducible exact Tame.validateChild _ _ ih _ | with_reducible exact Tame.validateLoop _ ih _ _ | tame1
macro_rules | `(tactic| tame1) => `(tactic| with_reducible exact Tame.validateNode _ _ _)

theorem fetchLocation (τ : TreeId) : Tame (BT.fetchLocation τ : M K V _) := by unfold BT.fetchLocation; tame
macro_rules | `(tactic| tame1) => `(tactic| with_reducible exact Tame.fetchLocation _)

theorem dimLoop (cmp : Compare K) (τ : TreeId) : ∀ (n : Nat) (i : Id) (d : Dimensions), Tame (BT.dimLoop cmp τ n i d : M K V _)
  | 0, _, _ => by unfold BT.dimLoop; tame
  | n + 1, i, d => by
      have ih := dimLoop cmp τ n
      unfold BT.dimLoop
      dsimp only
      repeat' first | with_reducible exact ih _ _ | tame1
theorem fetchDimensionsReport (cmp : Compare K) (τ : TreeId) (n : Nat) : Tame (BT.fetchDimensionsReport cmp τ n : M K V _) := by
  unfold BT.fetchDimensionsReport
  repeat' first | with_reducible exact dimLoop _ _ _ _ _ | tame1
theorem withErr {α : Type} (a : α) {m : M K V Unit} (hm : Tame m) : Tame (BT.withErr a m) := by unfold BT.withErr; tame
macro_rules | `(tactic| tame1) => `(tactic| with_reducible apply Tame.withErr)
theorem outOfRange (τ : TreeId) (i : Int) : Tame (BT.outOfRange τ i : M K V _) := by unfold BT.outOfRange; tame
macro_rules | `(tactic| tame1) => `(tactic| with_reducible exact Tame.outOfRange _ _)

theorem dumpFields (τ : TreeId) (d : Nat) (i : Id) : Tame (BT.dumpFields τ d i : M K V _) := ⟨fun w => .refl w⟩
macro_rules | `(tactic| tame1) => `(tactic| with_reducible exact Tame.dumpFields _ _ _)
theorem dumpHead (c : Bool) : Tame (BT.dumpHead c : M K V _) := ⟨fun w => .refl w⟩
macro_rules | `(tactic| tame1) => `(tactic| with_reducible exact Tame.dumpHead _)
theorem dumpLoop (cb : DumpCb K V) (d : Nat) (l : Bool) (i : Id) {f : Id → M K V (List (Line K V) × Option Err)} (hf : ∀ c, Tame (f c)) :
    ∀ (a k : Nat), Tame (BT.dumpLoop cb d l i f a k)
  | _, 0 => by unfold BT.dumpLoop; tame
  | a, k + 1 => by
      have ih := dumpLoop cb d l i hf (a + 1) k
      unfold BT.dumpLoop
      repeat' first | with_reducible exact hf _ | tame1
theorem dumpLeft (d : Nat) (n : NodeS K V) {f : Id → M K V (List (Line K V) × Option Err)} (hf : ∀ c, Tame (f c)) : Tame (BT.dumpLeft d n f) := by
  unfold BT.dumpLeft
  repeat' first | with_reducible exact hf _ | tame1
theorem dumpNode (cmp : Compare K) (cb : DumpCb K V) (τ : TreeId) : ∀ (n d : Nat) (i : Id), Tame (BT.dumpNode cmp cb τ n d i)
  | 0, _, _ => by unfold BT.dumpNode; tame
  | n + 1, d, i => by
      have ih := dumpNode cmp cb τ n (d + 1)
      unfold BT.dumpNode
      repeat' first | with_reducible exact Tame.dumpLeft _ _ ih | with_reducible exact Tame.dumpLoop _ _ _ _ ih _ _ | tame1
theorem dump (cmp : Compare K) (cb : DumpCb K V) (τ : TreeId) (n : Nat) : Tame (BT.dump cmp cb τ n) := by
  unfold BT.dump
  repeat' first | with_reducible exact Tame.dumpNode _ _ _ _ _ _ | tame1

/-- The calls of the `SortedMap` interface that change nothing. -/
def Looks : Spec.Op K V → Prop
  | .getByKey _ | .getByIndex _ | .bisectLeft _ | .bisectRight _ | .len | .validate => True
  | _ => False

theorem step (cmp : Compare K) (τ : TreeId) (n : Nat) (op : Spec.Op K V) (h : Looks op) : Tame (BT.step cmp τ n op) := by
  cases op <;> first | exact h.elim | (simp only [BT.step, BT.getByKey, BT.getByIndex, BT.bisectLeft, BT.bisectRight, BT.len, BT.validate]; tame)

theorem postLeafLoop (i : Id) : ∀ (a k : Nat), Tame (BT.postLeafLoop i a k : M K V _)
  | _, 0 => by unfold BT.postLeafLoop; tame
  | a, k + 1 => by
      have ih := postLeafLoop i (a + 1) k
      unfold BT.postLeafLoop
      tame
theorem postRef (l : Nat) (i : Id) : Tame (BT.postRef l i : M K V _) := by unfold BT.postRef; tame
macro_rules | `(tactic| tame1) => `(tactic| with_reducible first | exact Tame.postRef _ _ | exact Tame.postLeafLoop _ _ _)
theorem postInnerLoop (i : Id) : ∀ (a k : Nat), Tame (BT.postInnerLoop i a k : M K V _)
  | _, 0 => by unfold BT.postInnerLoop; tame
  | a, k + 1 => by
      have ih := postInnerLoop i (a + 1) k
      unfold BT.postInnerLoop
      tame
macro_rules | `(tactic| tame1) => `(tactic| with_reducible exact Tame.postInnerLoop _ _ _)
theorem postBody (i : Id) : Tame (BT.postBody i : M K V _) := by unfold BT.postBody; tame
macro_rules | `(tactic| tame1) => `(tactic| with_reducible exact Tame.postBody _)
theorem postNode (size : DiskNode K V → Nat) (τ : TreeId) (i : Id) : Tame (BT.postNode size τ i) := by unfold BT.postNode; tame
macro_rules | `(tactic| tame1) => `(tactic| with_reducible exact Tame.postNode _ _ _)
theorem flushNode (size : DiskNode K V → Nat) (τ : TreeId) : ∀ (n : Nat) (i : Id), Tame (BT.flushNode size τ false n i)
  | 0, _ => by unfold BT.flushNode; tame
  | n + 1, i => by
      have ih := flushNode size τ n
      unfold BT.flushNode
      simp only [if_neg Bool.false_ne_true]
      repeat' first | with_reducible exact ih _ | tame1
theorem flush (size : DiskNode K V → Nat) (τ : TreeId) (n : Nat) : Tame (BT.flush size τ n false) := by
  unfold BT.flush
  repeat' first | with_reducible exact Tame.flushNode _ _ _ _ | tame1
theorem oldBPlusTree (cmp : Compare K) (τ : TreeId) (r : Ref) (c : Bool) : Tame (BT.oldBPlusTree cmp τ r c : M K V _) := by unfold BT.oldBPlusTree; tame

end Tame

theorem updateLimits_within (a b : Nat) (w : World K V) :
    (updateLimits a b w).2.lru.clean.items = 0 ∨ (updateLimits a b w).2.ctl.active = true ∨ (updateLimits a b w).2.lru.clean.items + (updateLimits a b w).2.lru.dirty.items ≤ (updateLimits a b w).2.ctl.high := by
  unfold updateLimits
  dsimp only
  split
  · exact .inr (.inl rfl)
  · rename_i h
    simp only [Bool.and_eq_true, Bool.not_eq_true', decide_eq_true_eq, not_and, not_lt] at h
    by_cases h0 : w.lru.clean.items = 0
    · exact .inl h0
    cases ha : w.ctl.active with
    | true => exact .inr (.inl rfl)
    | false => exact .inr (.inr (h ⟨ha, by omega⟩))

end SM.BT

import Verif.Conc.Own

/-! Every call on a map stays within the map: taken apart into basic actions, each of them touches only what belongs to it. -/

namespace SM.BT

variable {K V α β : Type} [Areas] {t : TreeId}

/-- Steps that stay within `t`, with an answer that satisfies `P`. -/
inductive BConf (t : TreeId) (P : β → Prop) : Conc.Body (World K V) β → Prop where
  | ret {b : β} : P b → BConf t P (.ret b)
  | act {f : World K V → World K V} {k : World K V → Conc.Body (World K V) β} :
      (∀ w, Good w → EnvOk t w.env → Good (f w) ∧ EnvOk t (f w).env) →
      (∀ w, Good w → EnvOk t w.env → ∀ u, u ≠ t → Frame u w (f w)) →
      (∀ x y, Good x → Good y → EnvOk t x.env → Agree t x y → k x = k y ∧ Agree t (f x) (f y)) →
      (∀ w, Good w → EnvOk t w.env → BConf t P (k w)) → BConf t P (.act f k)

theorem BConf.bind {γ δ : Type} {P : γ → Prop} {Q : δ → Prop} {b : Conc.Body (World K V) γ} {g : γ → Conc.Body (World K V) δ} (h : BConf t P b) (hg : ∀ a, P a → BConf t Q (g a)) :
    BConf t Q (b.bind g) := by
  induction h with
  | ret h => exact hg _ h
  | act h1 h2 h3 _ ih => exact .act h1 h2 (fun x y a b c d => ⟨by rw [(h3 x y a b c d).1], (h3 x y a b c d).2⟩) ih

theorem BConf.of [Own α] {m : M K V α} (h : Local t m) : BConf t (own t) (.act (fun w => (m w).2) fun w => .ret (m w).1) :=
  .act (fun w a b => ⟨(h.good w a b).1, (h.good w a b).2.1⟩) h.frame (fun x y a b c d => ⟨by rw [(h.same x y a b c d).1], (h.same x y a b c d).2⟩)
    fun w a b => .ret (h.good w a b).2.2

/-- The action can be cut into basic actions that, provided `p`, stay within `t`. -/
def Conf [Own α] (p : Prop) (t : TreeId) (m : M K V α) : Prop := ∃ b, Split m b ∧ (p → BConf t (own t) b)

namespace Conf
variable [Own α] [Own β] {p : Prop}

theorem bind {m : M K V α} {f : α → M K V β} (h : Conf p t m) (g : ∀ a, Conf (p ∧ own t a) t (f a)) : Conf p t (m >>= f) := by
  obtain ⟨b, hb, hb'⟩ := h
  obtain ⟨k, hk⟩ := Classical.axiomOfChoice g
  refine ⟨_, hb.bind fun a => (hk a).1, fun hp => (hb' hp).bind fun o ho => ?_⟩
  cases o with
  | ok a => exact (hk a).2 ⟨hp, ho a rfl⟩
  | err e => exact .ret nofun
  | fatal => exact .ret nofun
theorem attempt {m : M K V α} (h : Conf p t m) : Conf p t (M.attempt m) := by
  obtain ⟨b, hb, hb'⟩ := h
  refine ⟨_, hb.attempt, fun hp => (hb' hp).bind fun o ho => .ret ?_⟩
  cases o with
  | ok a => rintro _ ⟨⟩ _ ⟨⟩; exact ho a rfl
  | err e => rintro _ ⟨⟩ _ ⟨⟩
  | fatal => nofun
theorem pure {a : α} (h : p → own t a) : Conf p t (Pure.pure a : M K V α) := ⟨_, .pure a, fun hp => .ret fun _ e => by cases e; exact h hp⟩
theorem throw (e : Err) : Conf p t (M.throw e : M K V α) := ⟨_, .throw e, fun _ => .ret nofun⟩
theorem fatal : Conf p t (M.fatal : M K V α) := ⟨_, .fatal, fun _ => .ret nofun⟩
theorem deref {a : Option α} (h : p → own t a) : Conf p t (M.deref a : M K V α) := by
  cases a
  · exact fatal
  · exact pure fun hp => h hp _ rfl
theorem must {n : Nat} {a : Option α} (h : p → own t a) : Conf p t (M.must n a : M K V α) := by
  cases a
  · exact throw _
  · exact pure fun hp => h hp _ rfl
theorem check (n : Nat) (b : Bool) : Conf p t (M.check n b : M K V Unit) := by
  cases b
  · exact throw _
  · exact pure fun hp => trivial
theorem of {m : M K V α} (h : Basic m) (hl : p → Local t m) : Conf p t m := ⟨_, .basic h, fun hp => .of (hl hp)⟩
theorem late {m : M K V α} (h : Splits m) (hl : p → Conf True t m) : Conf p t m := by
  by_cases hp : p
  · obtain ⟨b, h1, h2⟩ := hl hp
    exact ⟨b, h1, fun _ => h2 trivial⟩
  · obtain ⟨b, hb⟩ := h
    exact ⟨b, hb, fun h => absurd h hp⟩

theorem getN {i : Id} (h : p → own t i) : Conf p t (BT.getN i : M K V _) := .of (.getN i) fun hp => .getN (h hp)
theorem getP {i : Id} (h : p → own t i) : Conf p t (BT.getP i : M K V _) := .of (.getP i) fun hp => .getP (h hp)
theorem getT {τ : TreeId} (h : p → τ = t) : Conf p t (BT.getT τ : M K V _) := .of (.getT τ) fun hp => h hp ▸ .getT
theorem modN {i : Id} {f : NodeS K V → NodeS K V} (h : p → own t i) (hf : p → ∀ n, own t n → own t (f n)) : Conf p t (BT.modN i f : M K V _) :=
  .of (.modN i f) fun hp => .modN (h hp) (hf hp)
theorem modP {i : Id} {f : PSum → PSum} (h : p → own t i) (hf : p → ∀ n, own t n → own t (f n)) : Conf p t (BT.modP i f : M K V _) :=
  .of (.modP i f) fun hp => .modP (h hp) (hf hp)
theorem modT {f : TreeS → TreeS} (hf : p → ∀ n, own t n → own t (f n)) : Conf p t (BT.modT t f : M K V _) := .of (.modT t f) fun hp => .modT (hf hp)
theorem alloc {n : NodeS K V} (h : p → own t n) : Conf p t (BT.alloc n : M K V _) := .of (.alloc n) fun hp => .alloc (h hp)
theorem onLru {f : LruS → Option LruS} (h : p → LruLocal t f) : Conf p t (BT.onLru t f : M K V _) := .of (.onLru t f) fun hp => .onLru (h hp)
theorem incCacheHits : Conf p t (BT.incCacheHits t : M K V _) := .of (.onCtl t _ fun _ => ⟨rfl, rfl, Nat.le_succ _, Nat.le_refl _⟩) fun _ => .onCtl _
theorem incCacheMisses : Conf p t (BT.incCacheMisses t : M K V _) := .of (.onCtl t _ fun _ => ⟨rfl, rfl, Nat.le_refl _, Nat.le_succ _⟩) fun _ => .onCtl _
theorem startDrainer : Conf p t (BT.startDrainer t : M K V _) := .of (.startDrainer t) fun _ => .startDrainer
theorem getNode {r : Ref} (h : p → own t r) : Conf p t (BT.getNode r : M K V _) := .of (.getNode r) fun hp => .getNode (h hp)
theorem unpack : Conf p t (BT.unpack : M K V _) := .of .unpack fun _ => .unpack
theorem pack : Conf p t (BT.pack : M K V _) := .of .pack fun _ => .pack
theorem putNode {d : DiskNode K V} {n : Nat} (h : p → own t d) (hn : n ≠ 0) : Conf p t (BT.putNode d n : M K V _) := .of (.putNode d n) fun hp => .putNode (h hp) hn
theorem discardDisk {r : Ref} (ht : Whole t) (h : p → own t r) : Conf p t (BT.discardDisk r : M K V _) := .of (.discardDisk r) fun hp => .discardDisk ht (h hp)
theorem ranged {l : List Ref} (h : p → own t l) : Conf p t (BT.ranged l : M K V _) := .of (.ranged l) fun hp => .ranged (h hp)
end Conf

/-- Closes `p → own t a`. -/
syntax "owned" : tactic
macro_rules | `(tactic| owned) => `(tactic| (intros; simp_all [own_any, own_id, own_pair, own_some, own_none, own_nil, own_cons, own_ok, own_error, own_item, own_ptr, own_leaf, own_psum,
  own_zero, own_node, own_treeS, own_dleaf, own_dnone, own_inner, own_disk, childStruct, freshStruct, own_bools, own_ints]; done))

/-- One step of a proof of `Conf`; each function adds itself below. -/
syntax "confs1" : tactic
macro_rules | `(tactic| confs1) => `(tactic| dsimp only)
macro_rules | `(tactic| confs1) => `(tactic| with_reducible assumption)
macro_rules | `(tactic| confs1) => `(tactic| intro _)
macro_rules | `(tactic| confs1) => `(tactic| split)
macro_rules | `(tactic| confs1) => `(tactic| with_reducible apply Conf.bind)
macro_rules | `(tactic| confs1) => `(tactic| with_reducible apply Conf.attempt)
macro_rules | `(tactic| confs1) => `(tactic| with_reducible first | exact Conf.throw _ | exact Conf.fatal | exact Conf.check _ _ | exact Conf.incCacheHits | exact Conf.incCacheMisses | exact Conf.startDrainer | exact Conf.unpack | exact Conf.pack)
macro_rules | `(tactic| confs1) => `(tactic| (with_reducible refine Conf.pure ?_); owned)
macro_rules | `(tactic| confs1) => `(tactic| (with_reducible refine Conf.deref ?_); owned)
macro_rules | `(tactic| confs1) => `(tactic| (with_reducible refine Conf.must ?_); owned)
macro_rules | `(tactic| confs1) => `(tactic| (with_reducible refine Conf.getN ?_); owned)
macro_rules | `(tactic| confs1) => `(tactic| (with_reducible refine Conf.getP ?_); owned)
macro_rules | `(tactic| confs1) => `(tactic| (with_reducible refine Conf.getT ?_); owned)
macro_rules | `(tactic| confs1) => `(tactic| (with_reducible refine Conf.modT ?_); owned)
macro_rules | `(tactic| confs1) => `(tactic| (with_reducible refine Conf.alloc ?_); owned)
macro_rules | `(tactic| confs1) => `(tactic| (with_reducible refine Conf.getNode ?_); owned)
macro_rules | `(tactic| confs1) => `(tactic| (with_reducible refine Conf.discardDisk ‹_› ?_); owned)
macro_rules | `(tactic| confs1) => `(tactic| (with_reducible refine Conf.ranged ?_); owned)
macro_rules | `(tactic| confs1) => `(tactic| (with_reducible refine Conf.modN ?_ ?_) <;> owned)
macro_rules | `(tactic| confs1) => `(tactic| (with_reducible refine Conf.modP ?_ ?_) <;> owned)
macro "confs" : tactic => `(tactic| repeat' confs1)

namespace Conf
variable {p : Prop}

theorem rootOf : Conf p t (BT.rootOf t : M K V Id) := by unfold BT.rootOf; confs
macro_rules | `(tactic| confs1) => `(tactic| with_reducible exact Conf.rootOf)
theorem kvOf {i : Id} (h : p → own t i) : Conf p t (BT.kvOf i : M K V _) := by unfold BT.kvOf; confs
macro_rules | `(tactic| confs1) => `(tactic| (with_reducible refine Conf.kvOf ?_); owned)
theorem setKv {i : Id} {x : LLRB.Tree K (Val V)} (h : p → own t i) (h2 : p → own t x) : Conf p t (BT.setKv i x) := by unfold BT.setKv; confs
macro_rules | `(tactic| confs1) => `(tactic| (with_reducible refine Conf.setKv ?_ ?_) <;> owned)
theorem kvLen {i : Id} (h : p → own t i) : Conf p t (BT.kvLen i : M K V _) := by unfold BT.kvLen; confs
macro_rules | `(tactic| confs1) => `(tactic| (with_reducible refine Conf.kvLen ?_); owned)
theorem kvGetByIndex {i : Id} (n : Int) (h : p → own t i) : Conf p t (BT.kvGetByIndex i n : M K V _) := by
  unfold BT.kvGetByIndex
  exact bind (kvOf h) fun x => deref fun hp => own_getByIndex hp.2
macro_rules | `(tactic| confs1) => `(tactic| (with_reducible refine Conf.kvGetByIndex _ ?_); owned)
theorem kvFinish {i : Id} {r : Option ((Bool × Option Err) × LLRB.Tree K (Val V))} (h : p → own t i) (h2 : p → own t r) : Conf p t (BT.kvFinish i r) := by unfold BT.kvFinish; confs
theorem kvPut (cmp : Compare K) {i : Id} (k : K) {v : Val V} (h : p → own t i) (h2 : p → own t v) : Conf p t (BT.kvPut cmp i k v) := by
  unfold BT.kvPut
  exact bind (kvOf h) fun x => kvFinish (fun hp => h hp.1) fun hp => own_put (h2 hp.1) hp.2
macro_rules | `(tactic| confs1) => `(tactic| (with_reducible refine Conf.kvPut _ _ ?_ ?_) <;> owned)
theorem kvPutIgnore (cmp : Compare K) {i : Id} (k : K) {v : Val V} (h : p → own t i) (h2 : p → own t v) : Conf p t (BT.kvPutIgnore cmp i k v) := by unfold BT.kvPutIgnore; confs
macro_rules | `(tactic| confs1) => `(tactic| (with_reducible refine Conf.kvPutIgnore _ _ ?_ ?_) <;> owned)
theorem kvDeleteByIndex (cmp : Compare K) {i : Id} (n : Int) (h : p → own t i) : Conf p t (BT.kvDeleteByIndex cmp i n : M K V _) := by
  unfold BT.kvDeleteByIndex
  exact bind (kvOf h) fun x => kvFinish (fun hp => h hp.1) fun hp => own_deleteByIndex hp.2
macro_rules | `(tactic| confs1) => `(tactic| (with_reducible refine Conf.kvDeleteByIndex _ _ ?_); owned)
theorem liftBisect (r : Option (Int × Bool × Option Err)) : Conf p t (BT.liftBisect r : M K V _) := by unfold BT.liftBisect; confs
macro_rules | `(tactic| confs1) => `(tactic| with_reducible exact Conf.liftBisect _)
theorem asNode {v : Val V} (h : p → own t v) : Conf p t (BT.asNode v : M K V _) := by unfold BT.asNode; confs
macro_rules | `(tactic| confs1) => `(tactic| (with_reducible refine Conf.asNode ?_); owned)
theorem asItem (v : Val V) : Conf p t (BT.asItem v : M K V _) := by unfold BT.asItem; confs
macro_rules | `(tactic| confs1) => `(tactic| with_reducible exact Conf.asItem _)
theorem kvChild {i : Id} (n : Int) (h : p → own t i) : Conf p t (BT.kvChild i n : M K V _) := by unfold BT.kvChild; confs
macro_rules | `(tactic| confs1) => `(tactic| (with_reducible refine Conf.kvChild _ ?_); owned)
theorem kvChildOk (l : Nat) {i : Id} (n : Int) (h : p → own t i) : Conf p t (BT.kvChildOk l i n : M K V _) := by unfold BT.kvChildOk; confs
macro_rules | `(tactic| confs1) => `(tactic| (with_reducible refine Conf.kvChildOk _ _ ?_); owned)
/-! ### The cache -/

theorem initNodeAsEvicted {i : Id} (h : p → own t i) : Conf p t (BT.initNodeAsEvicted t i : M K V _) := by
  unfold BT.initNodeAsEvicted; exact onLru fun hp => .init (h hp)
macro_rules | `(tactic| confs1) => `(tactic| (with_reducible refine Conf.initNodeAsEvicted ?_); owned)
theorem markNodeUsed {i : Id} (h : p → own t i) : Conf p t (BT.markNodeUsed t i : M K V _) := by
  unfold BT.markNodeUsed; exact onLru fun hp => .used (h hp)
macro_rules | `(tactic| confs1) => `(tactic| (with_reducible refine Conf.markNodeUsed ?_); owned)
theorem markNodeEvicted {i : Id} (h : p → own t i) : Conf p t (BT.markNodeEvicted t i : M K V _) := by
  unfold BT.markNodeEvicted; exact onLru fun hp => .drop (h hp)
macro_rules | `(tactic| confs1) => `(tactic| (with_reducible refine Conf.markNodeEvicted ?_); owned)
theorem lruPlace {d : Bool} {i : Id} (h : p → own t i) : Conf p t (BT.onLru t fun s => s.place d i : M K V _) := onLru fun hp => .place d (h hp)
macro_rules | `(tactic| confs1) => `(tactic| (with_reducible refine Conf.lruPlace ?_); owned)
theorem lruDrop {i : Id} (h : p → own t i) : Conf p t (BT.onLru t fun s => s.drop i : M K V _) := onLru fun hp => .drop (h hp)
macro_rules | `(tactic| confs1) => `(tactic| (with_reducible refine Conf.lruDrop ?_); owned)
theorem markNodeClean {i : Id} (h0 : p → own t i) : Conf p t (BT.markNodeClean t i : M K V _) := by
  unfold BT.markNodeClean; confs
macro_rules | `(tactic| confs1) => `(tactic| (with_reducible refine Conf.markNodeClean ?_); owned)
theorem placeStale {i : Id} (h0 : p → own t i) : Conf p t (BT.placeStale t i : M K V _) := by
  unfold BT.placeStale
  refine bind (getN h0) fun n => ?_
  split
  · refine bind (modT fun hp s hs => ?_) fun _ => ?_
    · refine ⟨hs.1, ?_⟩
      dsimp only
      split
      · exact hs.2
      · rw [own_cons]; exact ⟨hp.2.2.1, hs.2⟩
    · confs
  · confs
macro_rules | `(tactic| confs1) => `(tactic| (with_reducible refine Conf.placeStale ?_); owned)
theorem markNodeDirty {i : Id} (h0 : p → own t i) : Conf p t (BT.markNodeDirty t i : M K V _) := by
  unfold BT.markNodeDirty; confs
macro_rules | `(tactic| confs1) => `(tactic| (with_reducible refine Conf.markNodeDirty ?_); owned)
theorem markNodeToBeDiscarded {i : Id} (h0 : p → own t i) : Conf p t (BT.markNodeToBeDiscarded t i : M K V _) := by
  unfold BT.markNodeToBeDiscarded; confs
macro_rules | `(tactic| confs1) => `(tactic| (with_reducible refine Conf.markNodeToBeDiscarded ?_); owned)

/-! ### Prefix sums -/

theorem arrangeRec : ∀ (n : Nat) {l : List Id} {p : Prop} (_ : p → own t l), Conf p t (BT.arrangeRec n l : M K V _)
  | 0, _, _, _ => by unfold BT.arrangeRec; confs
  | n + 1, l, p, h => by
      have ih := @arrangeRec n
      have h1 : p → own t (l.take (l.length / 2)) := fun hp a ha => h hp a (List.mem_of_mem_take ha)
      have h2 : p → own t (l.drop (l.length / 2 + 1)) := fun hp a ha => h hp a (List.mem_of_mem_drop ha)
      have h3 : p → own t l[l.length / 2]? := fun hp a ha => h hp a (List.mem_of_getElem? ha)
      unfold BT.arrangeRec
      repeat' first | ((with_reducible refine ih ?_); owned) | confs1
macro_rules | `(tactic| confs1) => `(tactic| (with_reducible refine Conf.arrangeRec _ ?_); owned)
theorem resetPs {i : Id} {n : Int} (h0 : p → own t i) : Conf p t (BT.resetPs i n : M K V _) := by
  unfold BT.resetPs; confs
macro_rules | `(tactic| confs1) => `(tactic| (with_reducible refine Conf.resetPs ?_); owned)
theorem arrangeLoop {i : Id} : ∀ (a k : Nat) {p : Prop} (_ : p → own t i), Conf p t (BT.arrangeLoop i a k : M K V _)
  | _, 0, _, _ => by unfold BT.arrangeLoop; confs
  | a, k + 1, p, h0 => by
      have ih := @arrangeLoop i (a + 1) k
      unfold BT.arrangeLoop
      repeat' first | ((with_reducible refine ih  ?_); owned) | confs1
macro_rules | `(tactic| confs1) => `(tactic| (with_reducible refine Conf.arrangeLoop _ _ ?_); owned)
theorem arrangePrefixSumTree {i : Id} (h0 : p → own t i) : Conf p t (BT.arrangePrefixSumTree i : M K V _) := by
  unfold BT.arrangePrefixSumTree; confs
macro_rules | `(tactic| confs1) => `(tactic| (with_reducible refine Conf.arrangePrefixSumTree ?_); owned)
theorem arrangeIgnore {i : Id} (h0 : p → own t i) : Conf p t (BT.arrangeIgnore i : M K V _) := by
  unfold BT.arrangeIgnore; confs
macro_rules | `(tactic| confs1) => `(tactic| (with_reducible refine Conf.arrangeIgnore ?_); owned)
theorem rearrange  : ∀ (n : Nat) {i : Id} {p : Prop} (_ : p → own t i), Conf p t (BT.rearrangePrefixSumTreeToRoot t n i : M K V _)
  | 0, _, _, _ => by unfold BT.rearrangePrefixSumTreeToRoot; confs
  | n + 1, i, p, h0 => by
      have ih := @rearrange n
      unfold BT.rearrangePrefixSumTreeToRoot
      repeat' first | ((with_reducible refine ih  ?_); owned) | confs1
macro_rules | `(tactic| confs1) => `(tactic| (with_reducible refine Conf.rearrange _ ?_); owned)
theorem updatePsUp {δ : Int} : ∀ (n : Nat) {i : Id} {p : Prop} (_ : p → own t i), Conf p t (BT.updatePsUp δ n i : M K V _)
  | 0, _, _, _ => by unfold BT.updatePsUp; confs
  | n + 1, i, p, h0 => by
      have ih := @updatePsUp δ n
      unfold BT.updatePsUp
      repeat' first | ((with_reducible refine ih  ?_); owned) | confs1
macro_rules | `(tactic| confs1) => `(tactic| (with_reducible refine Conf.updatePsUp _ ?_); owned)
theorem updateRec {δ : Int} : ∀ (n : Nat) {i : Id} {p : Prop} (_ : p → own t i), Conf p t (BT.updateRec t δ n i : M K V _)
  | 0, _, _, _ => by unfold BT.updateRec; confs
  | n + 1, i, p, h0 => by
      have ih := @updateRec δ n
      unfold BT.updateRec
      repeat' first | ((with_reducible refine ih  ?_); owned) | confs1
macro_rules | `(tactic| confs1) => `(tactic| (with_reducible refine Conf.updateRec _ ?_); owned)
theorem update {n : Nat} {i : Id} (h0 : p → own t i) : Conf p t (BT.updatePrefixSumTreeLeafToRoot t n i : M K V _) := by
  unfold BT.updatePrefixSumTreeLeafToRoot; confs
macro_rules | `(tactic| confs1) => `(tactic| (with_reducible refine Conf.update ?_); owned)
theorem touchUp  : ∀ (n : Nat) {i : Id} {p : Prop} (_ : p → own t i), Conf p t (BT.touchLoadedNodeToRoot t n i : M K V _)
  | 0, _, _, _ => by unfold BT.touchLoadedNodeToRoot; confs
  | n + 1, i, p, h0 => by
      have ih := @touchUp n
      unfold BT.touchLoadedNodeToRoot
      repeat' first | ((with_reducible refine ih  ?_); owned) | confs1
macro_rules | `(tactic| confs1) => `(tactic| (with_reducible refine Conf.touchUp _ ?_); owned)

/-! ### Loading, evicting, storing -/

theorem loadLeafLoop {cmp : Compare K} {i : Id} : ∀ (l : List (K × V)) {p : Prop} (_ : p → own t i), Conf p t (BT.loadLeafLoop cmp i l : M K V _)
  | [], _, _ => by unfold BT.loadLeafLoop; confs
  | (k, v) :: l, p, h0 => by
      have ih := @loadLeafLoop cmp i l
      unfold BT.loadLeafLoop
      repeat' first | ((with_reducible refine ih  ?_); owned) | confs1
macro_rules | `(tactic| confs1) => `(tactic| (with_reducible refine Conf.loadLeafLoop _ ?_); owned)
theorem loadInnerLoop {cmp : Compare K} {i : Id} : ∀ (l : List (K × (Ref × Nat))) {p : Prop} (_ : p → own t i) (_ : p → own t l), Conf p t (BT.loadInnerLoop cmp t i l : M K V _)
  | [], _, _, _ => by unfold BT.loadInnerLoop; confs
  | (k, c) :: l, p, h0, h1 => by
      have ih := @loadInnerLoop cmp i l
      unfold BT.loadInnerLoop
      repeat' first | ((with_reducible refine ih  ?_ ?_) <;> owned) | confs1
macro_rules | `(tactic| confs1) => `(tactic| (with_reducible refine Conf.loadInnerLoop _ ?_ ?_) <;> owned)
theorem loadBody {cmp : Compare K} {i : Id} {b : DiskBody K V} (h0 : p → own t i) (h1 : p → own t b) : Conf p t (BT.loadBody cmp t i b : M K V _) := by
  cases b <;> (unfold BT.loadBody; confs)
macro_rules | `(tactic| confs1) => `(tactic| (with_reducible refine Conf.loadBody ?_ ?_) <;> owned)
theorem loadMax {d : DiskNode K V}  : Conf p t (BT.loadMax t d : M K V _) := by
  unfold BT.loadMax; confs
macro_rules | `(tactic| confs1) => `(tactic| with_reducible exact Conf.loadMax)
theorem loadNode {cmp : Compare K} {i : Id} (h0 : p → own t i) : Conf p t (BT.loadNode cmp t i : M K V _) := by
  unfold BT.loadNode; confs
macro_rules | `(tactic| confs1) => `(tactic| (with_reducible refine Conf.loadNode ?_); owned)
theorem evict {i : Id} (h0 : p → own t i) : Conf p t (BT.evict t i : M K V _) := by
  unfold BT.evict; confs
macro_rules | `(tactic| confs1) => `(tactic| (with_reducible refine Conf.evict ?_); owned)
theorem forChildren {l : Nat} {i : Id} {f : Id → M K V Unit} (hf : ∀ {c : Id} {p : Prop}, (p → own t c) → Conf p t (f c)) :
    ∀ (a k : Nat) {p : Prop} (_ : p → own t i), Conf p t (BT.forChildren l i f a k)
  | _, 0, _, _ => by unfold BT.forChildren; confs
  | a, k + 1, p, h => by
      have ih := @forChildren l i f hf (a + 1) k
      unfold BT.forChildren
      repeat' first | ((with_reducible refine ih ?_); owned) | ((with_reducible refine hf ?_); owned) | confs1
theorem eachChild {l : Nat} {i : Id} {f : Id → M K V Unit} (hf : ∀ {c : Id} {p : Prop}, (p → own t c) → Conf p t (f c)) (h : p → own t i) : Conf p t (BT.eachChild l i f) := by
  unfold BT.eachChild
  repeat' first | ((with_reducible refine forChildren hf _ _ ?_); owned) | ((with_reducible refine hf ?_); owned) | confs1
theorem purgeNode {full : Bool} : ∀ (n : Nat) {i : Id} {p : Prop} (_ : p → own t i), Conf p t (BT.purgeNode t full n i : M K V _)
  | 0, _, _, _ => by unfold BT.purgeNode; confs
  | n + 1, i, p, h0 => by
      have ih := @purgeNode full n
      unfold BT.purgeNode
      repeat' first | ((with_reducible refine ih  ?_); owned) | ((with_reducible refine eachChild ih ?_); owned) | confs1
macro_rules | `(tactic| confs1) => `(tactic| (with_reducible refine Conf.purgeNode _ ?_); owned)
theorem visit {cmp : Compare K} {m : Bool} {i : Id} (h0 : p → own t i) : Conf p t (BT.visit cmp t m i : M K V _) := by
  unfold BT.visit; confs
macro_rules | `(tactic| confs1) => `(tactic| (with_reducible refine Conf.visit ?_); owned)
theorem touchNode {cmp : Compare K}  : ∀ (n : Nat) {i : Id} {p : Prop} (_ : p → own t i), Conf p t (BT.touchNode cmp t n i : M K V _)
  | 0, _, _, _ => by unfold BT.touchNode; confs
  | n + 1, i, p, h0 => by
      have ih := @touchNode cmp n
      unfold BT.touchNode
      repeat' first | ((with_reducible refine ih  ?_); owned) | ((with_reducible refine eachChild ih ?_); owned) | confs1
macro_rules | `(tactic| confs1) => `(tactic| (with_reducible refine Conf.touchNode _ ?_); owned)
theorem discardNode {cmp : Compare K}  : ∀ (n : Nat) {i : Id} {p : Prop} (_ : p → own t i), Conf p t (BT.discardNode cmp t n i : M K V _)
  | 0, _, _, _ => by unfold BT.discardNode; confs
  | n + 1, i, p, h0 => by
      have ih := @discardNode cmp n
      unfold BT.discardNode
      repeat' first | ((with_reducible refine ih  ?_); owned) | ((with_reducible refine eachChild ih ?_); owned) | confs1
macro_rules | `(tactic| confs1) => `(tactic| (with_reducible refine Conf.discardNode _ ?_); owned)

/-! ### Descents -/

theorem childFor {cmp : Compare K} {i : Id} {k : K} (h0 : p → own t i) : Conf p t (BT.childFor cmp i k : M K V _) := by
  unfold BT.childFor; confs
macro_rules | `(tactic| confs1) => `(tactic| (with_reducible refine Conf.childFor ?_); owned)
theorem psFind  : ∀ (n : Nat) {i : Id} {m : Nat} {p : Prop} (_ : p → own t i), Conf p t (BT.psFind n i m : M K V _)
  | 0, _, _, _, _ => by unfold BT.psFind; confs
  | n + 1, i, m, p, h0 => by
      have ih := @psFind  n
      unfold BT.psFind
      repeat' first | ((with_reducible refine ih  ?_); owned) | confs1
macro_rules | `(tactic| confs1) => `(tactic| (with_reducible refine Conf.psFind _ ?_); owned)
theorem leftSum {i : Id} (h0 : p → own t i) : Conf p t (BT.leftSum i : M K V _) := by
  unfold BT.leftSum; confs
macro_rules | `(tactic| confs1) => `(tactic| (with_reducible refine Conf.leftSum ?_); owned)
theorem psClimb  : ∀ (n : Nat) {i : Id} {s : List Bool} {p : Prop} (_ : p → own t i), Conf p t (BT.psClimb n i s : M K V _)
  | 0, _, _, _, _ => by unfold BT.psClimb; confs
  | n + 1, i, m, p, h0 => by
      have ih := @psClimb  n
      unfold BT.psClimb
      repeat' first | ((with_reducible refine ih  ?_); owned) | confs1
macro_rules | `(tactic| confs1) => `(tactic| (with_reducible refine Conf.psClimb _ ?_); owned)
theorem psDescend : ∀ (s : List Bool) {i : Id} {n : Nat} {p : Prop} (_ : p → own t i), Conf p t (BT.psDescend s i n : M K V _)
  | [], _, _, _, _ => by unfold BT.psDescend; confs
  | true :: s, i, m, p, h => by
      have ih := @psDescend s
      unfold BT.psDescend
      repeat' first | ((with_reducible refine ih ?_); owned) | confs1
  | false :: s, i, m, p, h => by
      have ih := @psDescend s
      unfold BT.psDescend
      repeat' first | ((with_reducible refine ih ?_); owned) | confs1
macro_rules | `(tactic| confs1) => `(tactic| (with_reducible refine Conf.psDescend _ ?_); owned)
theorem psDelta {n : Nat} {i c : Id} {m : Nat} (h0 : p → own t i) (h1 : p → own t c) : Conf p t (BT.psDelta n i c m : M K V _) := by
  unfold BT.psDelta; confs
macro_rules | `(tactic| confs1) => `(tactic| (with_reducible refine Conf.psDelta ?_ ?_) <;> owned)
theorem bisectLoop {cmp : Compare K} {f : LLRB.Tree K (Val V) → Option (Int × Bool × Option Err)} {k : K} : ∀ (n : Nat) {i : Id} {m : Nat} {p : Prop} (_ : p → own t i), Conf p t (BT.bisectLoop cmp t f k n i m : M K V _)
  | 0, _, _, _, _ => by unfold BT.bisectLoop; confs
  | n + 1, i, m, p, h0 => by
      have ih := @bisectLoop cmp f k n
      unfold BT.bisectLoop
      repeat' first | ((with_reducible refine ih  ?_); owned) | confs1
macro_rules | `(tactic| confs1) => `(tactic| (with_reducible refine Conf.bisectLoop _ ?_); owned)
theorem indexDescend {cmp : Compare K} {mk : Bool} : ∀ (n : Nat) {i : Id} {m : Nat} {s : List Int} {p : Prop} (_ : p → own t i), Conf p t (BT.indexDescend cmp t mk n i m s : M K V _)
  | 0, _, _, _, _, _ => by unfold BT.indexDescend; confs
  | n + 1, i, m, s, p, h0 => by
      have ih := @indexDescend cmp mk n
      unfold BT.indexDescend
      repeat' first | ((with_reducible refine ih  ?_); owned) | confs1
macro_rules | `(tactic| confs1) => `(tactic| (with_reducible refine Conf.indexDescend _ ?_); owned)
theorem keyDescend {cmp : Compare K} {mk : Bool} {k : K} : ∀ (n : Nat) {i : Id} {s : List Int} {p : Prop} (_ : p → own t i), Conf p t (BT.keyDescend cmp t mk k n i s : M K V _)
  | 0, _, _, _, _ => by unfold BT.keyDescend; confs
  | n + 1, i, s, p, h0 => by
      have ih := @keyDescend cmp mk k n
      unfold BT.keyDescend
      repeat' first | ((with_reducible refine ih  ?_); owned) | confs1
macro_rules | `(tactic| confs1) => `(tactic| (with_reducible refine Conf.keyDescend _ ?_); owned)

/-! ### Changing the tree -/

theorem splitLoop {cmp : Compare K} {mn : Nat} {lf : Bool} {a b : Id} : ∀ (n : Nat) {p : Prop} (_ : p → own t a) (_ : p → own t b), Conf p t (BT.splitLoop cmp mn lf a b n : M K V _)
  | 0, _, _, _ => by unfold BT.splitLoop; confs
  | n + 1, p, h0, h1 => by
      have ih := @splitLoop cmp mn lf a b n
      unfold BT.splitLoop
      repeat' first | ((with_reducible refine ih  ?_ ?_) <;> owned) | confs1
macro_rules | `(tactic| confs1) => `(tactic| (with_reducible refine Conf.splitLoop _ ?_ ?_) <;> owned)
theorem growRoot {cmp : Compare K} {a b : Id} {k : K} (h0 : p → own t a) (h1 : p → own t b) : Conf p t (BT.growRoot cmp t a b k : M K V _) := by
  unfold BT.growRoot; confs
macro_rules | `(tactic| confs1) => `(tactic| (with_reducible refine Conf.growRoot ?_ ?_) <;> owned)
theorem splitNode {cmp : Compare K} {a : Id} {n : Nat} (h0 : p → own t a) : Conf p t (BT.splitNode cmp t a n : M K V _) := by
  unfold BT.splitNode; confs
macro_rules | `(tactic| confs1) => `(tactic| (with_reducible refine Conf.splitNode ?_); owned)
theorem insertHere {cmp : Compare K} {big : Nat} : ∀ (n : Nat) {i : Id} {k : K} {v : Val V} {p : Prop} (_ : p → own t i) (_ : p → own t v), Conf p t (BT.insertHere cmp t big n i k v : M K V _)
  | 0, _, _, _, _, _, _ => by unfold BT.insertHere; confs
  | n + 1, i, k, v, p, h0, h1 => by
      have ih := @insertHere cmp big n
      unfold BT.insertHere
      repeat' first | ((with_reducible refine ih  ?_ ?_) <;> owned) | confs1
macro_rules | `(tactic| confs1) => `(tactic| (with_reducible refine Conf.insertHere _ ?_ ?_) <;> owned)
theorem borrowLeftLeaf {cmp : Compare K} {a b c : Id} {m n : Int} (h0 : p → own t a) (h1 : p → own t b) (h2 : p → own t c) : Conf p t (BT.borrowLeftLeaf cmp a b c m n : M K V _) := by
  unfold BT.borrowLeftLeaf; confs
macro_rules | `(tactic| confs1) => `(tactic| (with_reducible refine Conf.borrowLeftLeaf ?_ ?_ ?_) <;> owned)
theorem borrowLeftInner {cmp : Compare K} {a b c : Id} {m n : Int} (h0 : p → own t a) (h1 : p → own t b) (h2 : p → own t c) : Conf p t (BT.borrowLeftInner cmp a b c m n : M K V _) := by
  unfold BT.borrowLeftInner; confs
macro_rules | `(tactic| confs1) => `(tactic| (with_reducible refine Conf.borrowLeftInner ?_ ?_ ?_) <;> owned)
theorem borrowLeft {cmp : Compare K} {a b c : Id} {m n : Int} (h0 : p → own t a) (h1 : p → own t b) (h2 : p → own t c) : Conf p t (BT.borrowLeft cmp t a b c m n : M K V _) := by
  unfold BT.borrowLeft; confs
macro_rules | `(tactic| confs1) => `(tactic| (with_reducible refine Conf.borrowLeft ?_ ?_ ?_) <;> owned)
theorem borrowRightLeaf {cmp : Compare K} {a b c : Id} {m : Int} (h0 : p → own t a) (h1 : p → own t b) (h2 : p → own t c) : Conf p t (BT.borrowRightLeaf cmp a b c m : M K V _) := by
  unfold BT.borrowRightLeaf; confs
macro_rules | `(tactic| confs1) => `(tactic| (with_reducible refine Conf.borrowRightLeaf ?_ ?_ ?_) <;> owned)
theorem borrowRightInner {cmp : Compare K} {a b c : Id} {m : Int} (h0 : p → own t a) (h1 : p → own t b) (h2 : p → own t c) : Conf p t (BT.borrowRightInner cmp a b c m : M K V _) := by
  unfold BT.borrowRightInner; confs
macro_rules | `(tactic| confs1) => `(tactic| (with_reducible refine Conf.borrowRightInner ?_ ?_ ?_) <;> owned)
theorem borrowRight {cmp : Compare K} {a b c : Id} {m : Int} (h0 : p → own t a) (h1 : p → own t b) (h2 : p → own t c) : Conf p t (BT.borrowRight cmp t a b c m : M K V _) := by
  unfold BT.borrowRight; confs
macro_rules | `(tactic| confs1) => `(tactic| (with_reducible refine Conf.borrowRight ?_ ?_ ?_) <;> owned)
theorem reparent {v : Val V} {i : Id} (h0 : p → own t v) (h1 : p → own t i) : Conf p t (BT.reparent v i : M K V _) := by
  unfold BT.reparent; confs
macro_rules | `(tactic| confs1) => `(tactic| (with_reducible refine Conf.reparent ?_ ?_) <;> owned)
theorem mergeLoop {cmp : Compare K} {a b : Id} : ∀ (i k : Nat) {p : Prop} (_ : p → own t a) (_ : p → own t b), Conf p t (BT.mergeLoop cmp a b i k : M K V _)
  | _, 0, _, _, _ => by unfold BT.mergeLoop; confs
  | i, k + 1, p, h0, h1 => by
      have ih := @mergeLoop cmp a b (i + 1) k
      unfold BT.mergeLoop
      repeat' first | ((with_reducible refine ih  ?_ ?_) <;> owned) | confs1
macro_rules | `(tactic| confs1) => `(tactic| (with_reducible refine Conf.mergeLoop _ _ ?_ ?_) <;> owned)
theorem mergeInto {cmp : Compare K} {a b c : Id} {n : Int} {lf ch : Bool} (h0 : p → own t a) (h1 : p → own t b) (h2 : p → own t c) : Conf p t (BT.mergeInto cmp a b c n lf ch : M K V _) := by
  unfold BT.mergeInto; confs
macro_rules | `(tactic| confs1) => `(tactic| (with_reducible refine Conf.mergeInto ?_ ?_ ?_) <;> owned)
theorem shrinkRoot {a : Id} (h0 : p → own t a) : Conf p t (BT.shrinkRoot t a : M K V _) := by
  unfold BT.shrinkRoot; confs
macro_rules | `(tactic| confs1) => `(tactic| (with_reducible refine Conf.shrinkRoot ?_); owned)
theorem dropSep {cmp : Compare K} {a b : Id} {n : Int} (h0 : p → own t a) (h1 : p → own t b) : Conf p t (BT.dropSep cmp a b n : M K V _) := by
  unfold BT.dropSep; confs
macro_rules | `(tactic| confs1) => `(tactic| (with_reducible refine Conf.dropSep ?_ ?_) <;> owned)
theorem merge {cmp : Compare K} {m : M K V Unit} {a b c : Id} {n : Int} {lf ch : Bool} (hm : ∀ {q : Prop}, (q → p) → Conf q t m) (h0 : p → own t a) (h1 : p → own t b) (h2 : p → own t c) :
    Conf p t (BT.merge cmp t m a b c n lf ch) := by
  unfold BT.merge
  repeat' first | ((with_reducible refine hm ?_); (intros; simp_all; done)) | confs1
theorem leftSibling {a : Id} {n : Int} (h0 : p → own t a) : Conf p t (BT.leftSibling a n : M K V _) := by
  unfold BT.leftSibling; confs
macro_rules | `(tactic| confs1) => `(tactic| (with_reducible refine Conf.leftSibling ?_); owned)
theorem rightSibling {a : Id} {n : Int} (h0 : p → own t a) : Conf p t (BT.rightSibling a n : M K V _) := by
  unfold BT.rightSibling; confs
macro_rules | `(tactic| confs1) => `(tactic| (with_reducible refine Conf.rightSibling ?_); owned)
theorem canLend {cmp : Compare K} {a : Option Id} (h0 : p → own t a) : Conf p t (BT.canLend cmp t a : M K V _) := by
  unfold BT.canLend; confs
macro_rules | `(tactic| confs1) => `(tactic| (with_reducible refine Conf.canLend ?_); owned)

end Conf

end SM.BT

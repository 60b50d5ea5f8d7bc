import Verif.Conc.Conf

/-! Every call on a map stays within the map, continued. -/

namespace SM.BT

section
variable {K V : Type} {t : TreeId}

theorem own_oerr (e : Option Err) : own t e = True := eq_true fun _ _ => trivial
theorem own_oint (e : Option Int) : own t e = True := eq_true fun _ _ => trivial
theorem own_afterPatch {n : Int} {v : V} {x y : LLRB.Tree K (Val V)} {r : Bool × Option Err} (e : LLRB.Tree.patchByIndex n (.item v) x = some (r, y)) (h : own t x) : own t y :=
  (own_patchByIndex (v := .item v) nofun h _ e).2
theorem own_afterDelete {cmp : Compare K} {k : K} {x y : LLRB.Tree K (Val V)} {r : Bool × Option Err} (e : LLRB.Tree.deleteByKey cmp k x = some (r, y)) (h : own t x) : own t y :=
  (own_deleteByKey h _ e).2
theorem own_patched {cmp : Compare K} {k : K} {v : V} {x : LLRB.Tree K (Val V)} (h : own t x) : own t (LLRB.Tree.patchByKey cmp k (.item v) x).2 := (own_patchByKey (v := .item v) nofun h).2

end

macro_rules | `(tactic| owned) => `(tactic| (intros; simp_all [own_any, own_id, own_pair, own_some, own_none, own_nil, own_cons, own_ok, own_error, own_item, own_ptr, own_leaf, own_psum,
  own_zero, own_node, own_treeS, own_dleaf, own_dnone, own_inner, own_disk, childStruct, freshStruct, own_bools, own_ints, own_oerr, own_oint]; done))
macro_rules | `(tactic| confs1) => `(tactic| ((with_reducible refine Conf.setKv ?_ fun hp => own_patched ?_) <;> owned))
macro_rules | `(tactic| confs1) => `(tactic| ((with_reducible refine Conf.setKv ?_ fun hp => own_afterPatch (by assumption) ?_) <;> owned))
macro_rules | `(tactic| confs1) => `(tactic| ((with_reducible refine Conf.setKv ?_ fun hp => own_afterDelete (by assumption) ?_) <;> owned))

namespace Conf

variable {K V : Type} [Areas] {t : TreeId} {p : Prop}

theorem rebalanceHere {cmp : Compare K} : ∀ (n : Nat) {i : Id} {s : List Int} {p : Prop} (_ : p → own t i), Conf p t (BT.rebalanceHere cmp t n i s : M K V _)
  | 0, _, _, _, _ => by unfold BT.rebalanceHere; confs
  | n + 1, i, s, p, h0 => by
      have ih := @rebalanceHere cmp n
      unfold BT.rebalanceHere
      repeat' first | ((with_reducible refine merge (fun hq => ih ?_) ?_ ?_ ?_) <;> owned) | confs1
macro_rules | `(tactic| confs1) => `(tactic| (with_reducible refine Conf.rebalanceHere _ ?_); owned)
theorem withErr {γ : Type} [Own γ] {a : γ} {m : M K V Unit} (h : p → own t a) (hm : Conf p t m) : Conf p t (BT.withErr a m) := by unfold BT.withErr; confs
macro_rules | `(tactic| confs1) => `(tactic| ((with_reducible refine Conf.withErr ?_ ?_); focus owned))
theorem outOfRange {i : Int}  : Conf p t (BT.outOfRange t i : M K V _) := by
  unfold BT.outOfRange; confs
macro_rules | `(tactic| confs1) => `(tactic| with_reducible exact Conf.outOfRange)
theorem afterDelete {cmp : Compare K} {n : Nat} {i : Id} {s : List Int} (h0 : p → own t i) : Conf p t (BT.afterDelete cmp t n i s : M K V _) := by
  unfold BT.afterDelete; confs
macro_rules | `(tactic| confs1) => `(tactic| (with_reducible refine Conf.afterDelete ?_); owned)

/-! ### Validate -/

theorem validatePrefixSum  : ∀ (n : Nat) {i : Id} {p : Prop} (_ : p → own t i), Conf p t (BT.validatePrefixSum n i : M K V _)
  | 0, _, _, _ => by unfold BT.validatePrefixSum; confs
  | n + 1, i, p, h0 => by
      have ih := @validatePrefixSum n
      unfold BT.validatePrefixSum
      repeat' first | ((with_reducible refine ih  ?_); owned) | confs1
macro_rules | `(tactic| confs1) => `(tactic| (with_reducible refine Conf.validatePrefixSum _ ?_); owned)
theorem validateLoad {cmp : Compare K} {i : Id} (h0 : p → own t i) : Conf p t (BT.validateLoad cmp i : M K V _) := by
  unfold BT.validateLoad
  refine bind (getN h0) fun n => late (by splits) fun ⟨_, hn⟩ => ?_
  rw [hn.1]
  confs
macro_rules | `(tactic| confs1) => `(tactic| (with_reducible refine Conf.validateLoad ?_); owned)
theorem kvValidate {i : Id} (h0 : p → own t i) : Conf p t (BT.kvValidate i : M K V _) := by
  unfold BT.kvValidate; confs
macro_rules | `(tactic| confs1) => `(tactic| (with_reducible refine Conf.kvValidate ?_); owned)
theorem valid {l : Nat} {c : Bool}  : Conf p t (BT.valid l c : M K V _) := by
  unfold BT.valid; confs
macro_rules | `(tactic| confs1) => `(tactic| with_reducible exact Conf.valid)
theorem validateChild {l : Nat} {i c : Id} {f : Id → M K V Unit} (hf : ∀ {c : Id} {p : Prop}, (p → own t c) → Conf p t (f c)) (h0 : p → own t i) (h1 : p → own t c) : Conf p t (BT.validateChild l i f c) := by
  unfold BT.validateChild
  repeat' first | ((with_reducible refine hf ?_); owned) | confs1
theorem validateLoop {i : Id} {f : Id → M K V Unit} (hf : ∀ {c : Id} {p : Prop}, (p → own t c) → Conf p t (f c)) : ∀ (a k : Nat) {p : Prop} (_ : p → own t i), Conf p t (BT.validateLoop i f a k)
  | _, 0, _, _ => by unfold BT.validateLoop; confs
  | a, k + 1, p, h => by
      have ih := @validateLoop i f hf (a + 1) k
      unfold BT.validateLoop
      repeat' first | ((with_reducible refine ih ?_); owned) | ((with_reducible refine validateChild hf ?_ ?_) <;> owned) | confs1
theorem validateNode {cmp : Compare K} : ∀ (n : Nat) {i : Id} {p : Prop} (_ : p → own t i), Conf p t (BT.validateNode cmp n i : M K V _)
  | 0, _, _, _ => by unfold BT.validateNode; confs
  | n + 1, i, p, h => by
      have ih := @validateNode cmp n
      unfold BT.validateNode
      repeat' first | ((with_reducible refine validateLoop ih _ _ ?_); owned) | ((with_reducible refine validateChild ih ?_ ?_) <;> owned) | confs1
macro_rules | `(tactic| confs1) => `(tactic| (with_reducible refine Conf.validateNode _ ?_); owned)

/-! ### The API -/

theorem put {cmp : Compare K} {n : Nat} {k : K} {v : V} : Conf p t (BT.put cmp t n k v) := by unfold BT.put; confs
theorem getByKey {cmp : Compare K} {n : Nat} {k : K} : Conf p t (BT.getByKey cmp t n k : M K V _) := by unfold BT.getByKey; confs
theorem getByIndex {cmp : Compare K} {n : Nat} {k : Int} : Conf p t (BT.getByIndex cmp t n k : M K V _) := by unfold BT.getByIndex; confs
theorem patchByKey {cmp : Compare K} {n : Nat} {k : K} {v : V} : Conf p t (BT.patchByKey cmp t n k v) := by unfold BT.patchByKey; confs
theorem patchByIndex {cmp : Compare K} {n : Nat} {k : Int} {v : V} : Conf p t (BT.patchByIndex cmp t n k v) := by unfold BT.patchByIndex; confs
theorem deleteByKey {cmp : Compare K} {n : Nat} {k : K} : Conf p t (BT.deleteByKey cmp t n k : M K V _) := by unfold BT.deleteByKey; confs
theorem deleteByIndex {cmp : Compare K} {n : Nat} {k : Int} : Conf p t (BT.deleteByIndex cmp t n k : M K V _) := by unfold BT.deleteByIndex; confs
theorem bisectLeft {cmp : Compare K} {n : Nat} {k : K} : Conf p t (BT.bisectLeft cmp t n k : M K V _) := by unfold BT.bisectLeft; confs
theorem bisectRight {cmp : Compare K} {n : Nat} {k : K} : Conf p t (BT.bisectRight cmp t n k : M K V _) := by unfold BT.bisectRight; confs
theorem len {cmp : Compare K} : Conf p t (BT.len cmp t : M K V _) := by unfold BT.len; confs
theorem validate {cmp : Compare K} {n : Nat} : Conf p t (BT.validate cmp t n : M K V _) := by unfold BT.validate; confs
theorem step {cmp : Compare K} {n : Nat} {op : Spec.Op K V} : Conf p t (BT.step cmp t n op) := by
  cases op <;> simp only [BT.step] <;>
    repeat' first | with_reducible exact put | with_reducible exact getByKey | with_reducible exact getByIndex | with_reducible exact patchByKey | with_reducible exact patchByIndex | with_reducible exact deleteByKey | with_reducible exact deleteByIndex | with_reducible exact bisectLeft | with_reducible exact bisectRight | with_reducible exact len | with_reducible exact validate | confs1

theorem fetchLocation   : Conf p t (BT.fetchLocation t : M K V _) := by
  unfold BT.fetchLocation; confs
macro_rules | `(tactic| confs1) => `(tactic| with_reducible exact Conf.fetchLocation)
mutual
theorem updateLayoutReport {cmp : Compare K} : ∀ (n : Nat) {i : Id} {m : Layout} {p : Prop} (_ : p → own t i), Conf p t (BT.updateLayoutReport cmp t n i m : M K V _)
  | 0, _, _, _, _ => by unfold BT.updateLayoutReport; confs
  | n + 1, i, m, p, h => by
      have ih := @updateLayoutReport cmp n
      have ih2 := @layoutLoop cmp n
      unfold BT.updateLayoutReport
      repeat' first | ((with_reducible refine ih ?_); owned) | ((with_reducible refine ih2 _ _ ?_); owned) | confs1
theorem layoutLoop {cmp : Compare K} : ∀ (n : Nat) {i : Id} (a k : Nat) {m : Layout} {p : Prop} (_ : p → own t i), Conf p t (BT.layoutLoop cmp t n i a k m : M K V _)
  | _, _, _, 0, _, _, _ => by unfold BT.layoutLoop; confs
  | n, i, a, k + 1, m, p, h => by
      have ih := @updateLayoutReport cmp n
      have ih2 := @layoutLoop cmp n i (a + 1) k
      unfold BT.layoutLoop
      repeat' first | ((with_reducible refine ih ?_); owned) | ((with_reducible refine ih2 ?_); owned) | confs1
end
macro_rules | `(tactic| confs1) => `(tactic| (with_reducible refine Conf.updateLayoutReport _ ?_); owned)
theorem fetchLayoutReport {cmp : Compare K} {n : Nat}  : Conf p t (BT.fetchLayoutReport cmp t n : M K V _) := by
  unfold BT.fetchLayoutReport; confs
macro_rules | `(tactic| confs1) => `(tactic| with_reducible exact Conf.fetchLayoutReport)
theorem dimLoop {cmp : Compare K}  : ∀ (n : Nat) {i : Id} {d : Dimensions} {p : Prop} (_ : p → own t i), Conf p t (BT.dimLoop cmp t n i d : M K V _)
  | 0, _, _, _, _ => by unfold BT.dimLoop; confs
  | n + 1, i, d, p, h0 => by
      have ih := @dimLoop cmp n
      unfold BT.dimLoop
      repeat' first | ((with_reducible refine ih  ?_); owned) | confs1
macro_rules | `(tactic| confs1) => `(tactic| (with_reducible refine Conf.dimLoop _ ?_); owned)
theorem fetchDimensionsReport {cmp : Compare K} {n : Nat}  : Conf p t (BT.fetchDimensionsReport cmp t n : M K V _) := by
  unfold BT.fetchDimensionsReport; confs
macro_rules | `(tactic| confs1) => `(tactic| with_reducible exact Conf.fetchDimensionsReport)
theorem purge {n : Nat} {full : Bool}  : Conf p t (BT.purge t n full : M K V _) := by
  unfold BT.purge; confs
macro_rules | `(tactic| confs1) => `(tactic| with_reducible exact Conf.purge)
theorem touch {cmp : Compare K} {n : Nat}  : Conf p t (BT.touch cmp t n : M K V _) := by
  unfold BT.touch; confs
macro_rules | `(tactic| confs1) => `(tactic| with_reducible exact Conf.touch)
theorem touchItem {cmp : Compare K} {n k : Nat}  : Conf p t (BT.touchItem cmp t n k : M K V _) := by
  unfold BT.touchItem; confs
macro_rules | `(tactic| confs1) => `(tactic| with_reducible exact Conf.touchItem)
theorem newBPlusTree {n : Nat} {c : Bool}  : Conf p t (BT.newBPlusTree t n c : M K V _) := by
  unfold BT.newBPlusTree; confs
macro_rules | `(tactic| confs1) => `(tactic| with_reducible exact Conf.newBPlusTree)
theorem oldBPlusTree {cmp : Compare K} {r : Ref} {c : Bool} (h0 : p → own t r) : Conf p t (BT.oldBPlusTree cmp t r c : M K V _) := by
  unfold BT.oldBPlusTree; confs
macro_rules | `(tactic| confs1) => `(tactic| (with_reducible refine Conf.oldBPlusTree ?_); owned)
theorem postLeafLoop {i : Id} : ∀ (a k : Nat) {p : Prop} (_ : p → own t i), Conf p t (BT.postLeafLoop i a k : M K V _)
  | _, 0, _, _ => by unfold BT.postLeafLoop; confs
  | a, k + 1, p, h0 => by
      have ih := @postLeafLoop i (a + 1) k
      unfold BT.postLeafLoop
      repeat' first | ((with_reducible refine ih  ?_); owned) | confs1
macro_rules | `(tactic| confs1) => `(tactic| (with_reducible refine Conf.postLeafLoop _ _ ?_); owned)
theorem postRef {l : Nat} {i : Id} (h0 : p → own t i) : Conf p t (BT.postRef l i : M K V _) := by
  unfold BT.postRef; confs
macro_rules | `(tactic| confs1) => `(tactic| (with_reducible refine Conf.postRef ?_); owned)
theorem postInnerLoop {i : Id} : ∀ (a k : Nat) {p : Prop} (_ : p → own t i), Conf p t (BT.postInnerLoop i a k : M K V _)
  | _, 0, _, _ => by unfold BT.postInnerLoop; confs
  | a, k + 1, p, h0 => by
      have ih := @postInnerLoop i (a + 1) k
      unfold BT.postInnerLoop
      repeat' first | ((with_reducible refine ih  ?_); owned) | confs1
macro_rules | `(tactic| confs1) => `(tactic| (with_reducible refine Conf.postInnerLoop _ _ ?_); owned)
theorem postBody {i : Id} (h0 : p → own t i) : Conf p t (BT.postBody i : M K V _) := by
  unfold BT.postBody; confs
macro_rules | `(tactic| confs1) => `(tactic| (with_reducible refine Conf.postBody ?_); owned)
macro_rules | `(tactic| confs1) => `(tactic| ((with_reducible refine Conf.putNode ?_ (Nat.succ_ne_zero _)); owned))
theorem postNode {size : DiskNode K V → Nat} {i : Id} (h0 : p → own t i) : Conf p t (BT.postNode size t i : M K V _) := by
  unfold BT.postNode; confs
macro_rules | `(tactic| confs1) => `(tactic| (with_reducible refine Conf.postNode ?_); owned)
theorem flushNode {size : DiskNode K V → Nat} {q : Bool} : ∀ (n : Nat) {i : Id} {p : Prop} (_ : p → own t i), Conf p t (BT.flushNode size t q n i : M K V _)
  | 0, _, _, _ => by unfold BT.flushNode; confs
  | n + 1, i, p, h0 => by
      have ih := @flushNode size q n
      unfold BT.flushNode
      repeat' first | ((with_reducible refine ih  ?_); owned) | ((with_reducible refine eachChild ih ?_); owned) | confs1
macro_rules | `(tactic| confs1) => `(tactic| (with_reducible refine Conf.flushNode _ ?_); owned)
theorem flush {size : DiskNode K V → Nat} {n : Nat} {q : Bool}  : Conf p t (BT.flush size t n q : M K V _) := by
  unfold BT.flush; confs
macro_rules | `(tactic| confs1) => `(tactic| with_reducible exact Conf.flush)
theorem pruneLoop (ht : Whole t) : ∀ (l : List Ref) {p : Prop} (_ : p → own t l), Conf p t (BT.pruneLoop l : M K V _)
  | [], _, _ => by unfold BT.pruneLoop; confs
  | r :: l, p, h0 => by
      have ih := @pruneLoop ht l
      unfold BT.pruneLoop
      repeat' first | ((with_reducible refine ih  ?_); owned) | confs1
macro_rules | `(tactic| confs1) => `(tactic| (with_reducible refine Conf.pruneLoop ‹_› _ ?_); owned)
theorem pruneWhileLocked (ht : Whole t) : Conf p t (BT.pruneWhileLocked t : M K V _) := by
  unfold BT.pruneWhileLocked; confs
macro_rules | `(tactic| confs1) => `(tactic| with_reducible exact Conf.pruneWhileLocked ‹_›)
theorem prune (ht : Whole t) : Conf p t (BT.prune t : M K V _) := by
  unfold BT.prune; confs
macro_rules | `(tactic| confs1) => `(tactic| with_reducible exact Conf.prune ‹_›)
theorem discard {cmp : Compare K} {n : Nat} (ht : Whole t) : Conf p t (BT.discard cmp t n : M K V _) := by
  unfold BT.discard; confs
macro_rules | `(tactic| confs1) => `(tactic| with_reducible exact Conf.discard ‹_›)
theorem drainerEvict {n : Nat} {i : Id} (h : p → own t i) : Conf p t (BT.drainerEvict n i : M K V _) := by
  rw [Splits.drainerEvict_eq]
  refine bind (of (.tagOf i) fun hp => .tagOf (h hp)) fun tag => ?_
  split
  · confs
  · refine bind (getN fun hp => h hp.1) fun n => late (by splits) fun ⟨hp, hn⟩ => ?_
    rw [hn.1]
    confs
theorem reply {γ : Type} [Own γ] (f : γ → Api.Reply K V) {m : M K V γ} (h : Conf p t m) : Conf p t (BT.reply f m) := by
  rw [Splits.reply_eq]
  exact bind h fun _ => pure fun _ => trivial

end Conf

end SM.BT

import Verif.Props.Lru
import Verif.Props.LLRB
import Verif.BTree.Reads

/-!
What follows from Validate returning nil, whatever state the map is in (C49). The states here need not be reachable: this is what Validate is
for.
-/

namespace SM.Props

open BT Spec

/-! ### The LLRB -/

section
variable {K V : Type}

/-- Every node records the number of items at or below it. -/
def Exact : LLRB.Tree K V → Prop
  | .nil => True
  | .node _ _ l r _ n => Exact l ∧ Exact r ∧ n = (l.toList.length + 1 + r.toList.length : Nat)

theorem Exact.iff {t : LLRB.Tree K V} : Exact t ↔ LLRB.Tree.LenOK (fun _ => 1) t := by
  induction t with
  | nil => exact Iff.rfl
  | node k v l r c n ihl ihr =>
    have h : ∀ m : List (K × V), LLRB.Tree.wsum (fun _ => 1) m = m.length := fun m => by
      induction m with
      | nil => rfl
      | cons a m ih => simp only [LLRB.Tree.wsum, List.length_cons] at ih ⊢; omega
    simp only [Exact, LLRB.Tree.LenOK, ihl, ihr, h]
    push_cast
    exact Iff.rfl

/-- C49: on an LLRB in whatever state, Validate returns nil exactly if every node's count is right. -/
theorem C49_llrb_validate_iff (t : LLRB.Tree K V) : t.validate = none ↔ Exact t := by
  refine ⟨fun h => ?_, fun h => LLRB.Tree.validate_none (Exact.iff.1 h)⟩
  induction t with
  | nil => trivial
  | node k v l r c n ihl ihr =>
    simp only [LLRB.Tree.validate] at h
    cases hl : l.validate with
    | some e => rw [hl] at h; cases h
    | none =>
      cases hr : r.validate with
      | some e => rw [hl, hr] at h; cases h
      | none =>
        rw [hl, hr] at h
        refine ⟨ihl hl, ihr hr, ?_⟩
        have e1 := (Exact.iff.1 (ihl hl)).one_len
        have e2 := (Exact.iff.1 (ihr hr)).one_len
        simp only [ne_eq, ite_not, ite_eq_left_iff, reduceCtorEq, imp_false, Decidable.not_not] at h
        push_cast
        omega

/-- C49: then Len and the look-ups by index answer as the list of items does. -/
theorem C49_llrb_validated {t : LLRB.Tree K V} (h : t.validate = none) (i : Int) : t.len = t.toList.length ∧ t.getByIndex i = some (at? i t.toList) := by
  have := Exact.iff.1 ((C49_llrb_validate_iff t).1 h)
  exact ⟨this.one_len, LLRB.Tree.getByIndex_spec this i⟩

/-- a tree that Validate accepts, and one with a wrong count that it does not -/
example : (LLRB.Tree.node 2 0 (.node 1 0 .nil .nil false 1) (.node 3 0 .nil .nil false 1) false 3 : LLRB.Tree Nat Nat).validate = none ∧
    (LLRB.Tree.node 2 0 (.node 1 0 .nil .nil false 2) (.node 3 0 .nil .nil false 1) false 4 : LLRB.Tree Nat Nat).validate ≠ none :=
  ⟨rfl, by simp [LLRB.Tree.validate, LLRB.Tree.len]⟩

/-- C49: Validate does not look at the keys: it accepts trees out of order, in which GetByKey misses what is there. -/
theorem C49_llrb_order_unchecked : ∃ t : LLRB.Tree Nat Nat, t.validate = none ∧ (1, 10) ∈ t.toList ∧ t.getByKey Sample.cmp 1 = (none, none) :=
  ⟨.node 2 20 .nil (.node 1 10 .nil .nil false 1) false 2, rfl, by simp [LLRB.Tree.toList], rfl⟩

end

/-! ### The B+Tree -/

section
variable {K V : Type}

/-- The action changes nothing. -/
structure Peek {α : Type} (m : M K V α) : Prop where
  run : ∀ w, (m w).2 = w

namespace Peek
variable {α β : Type}
theorem bind {m : M K V α} {f : α → M K V β} (h : Peek m) (g : ∀ a, Peek (f a)) : Peek (m >>= f) := by
  refine ⟨fun w => ?_⟩
  show (M.bind m f w).2 = w
  have := h.run w
  unfold M.bind
  rcases hm : m w with ⟨_ | _ | _, w'⟩ <;> rw [hm] at this <;> simp only at this ⊢ <;> subst this
  · exact (g _).run _
  · rfl
  · rfl
theorem pure (a : α) : Peek (Pure.pure a : M K V α) := ⟨fun _ => rfl⟩
theorem throw (e : Err) : Peek (M.throw e : M K V α) := ⟨fun _ => rfl⟩
theorem fatal : Peek (M.fatal : M K V α) := ⟨fun _ => rfl⟩
theorem deref (a : Option α) : Peek (M.deref a : M K V α) := by cases a <;> exact ⟨fun _ => rfl⟩
theorem must (n : Nat) (a : Option α) : Peek (M.must n a : M K V α) := by cases a <;> exact ⟨fun _ => rfl⟩
theorem getN (i : Id) : Peek (BT.getN i : M K V _) := ⟨fun _ => rfl⟩
theorem getP (i : Id) : Peek (BT.getP i : M K V _) := ⟨fun _ => rfl⟩
theorem getT (i : TreeId) : Peek (BT.getT i : M K V _) := ⟨fun _ => rfl⟩
theorem attempt {m : M K V α} (h : Peek m) : Peek (M.attempt m) := by
  refine ⟨fun w => ?_⟩
  have := h.run w
  unfold M.attempt
  rcases hm : m w with ⟨_ | _ | _, w'⟩ <;> rw [hm] at this <;> exact this
theorem valid (n : Nat) (b : Bool) : Peek (BT.valid n b : M K V Unit) := by cases b <;> exact ⟨fun _ => rfl⟩
theorem kvOf (i : Id) : Peek (BT.kvOf i : M K V _) := .bind (.getN i) fun _ => .deref _
theorem kvLen (i : Id) : Peek (BT.kvLen i : M K V _) := .bind (.kvOf i) fun _ => .pure _
theorem kvValidate (i : Id) : Peek (BT.kvValidate i : M K V _) := .bind (.kvOf i) fun _ => by split <;> exact ⟨fun _ => rfl⟩
theorem asNode (v : Val V) : Peek (BT.asNode v : M K V Id) := by cases v <;> exact ⟨fun _ => rfl⟩
theorem kvChildOk (n : Nat) (i : Id) (k : Int) : Peek (BT.kvChildOk n i k : M K V Id) :=
  .bind (.bind (.kvOf i) fun _ => .deref _) fun _ => .bind (.must _ _) fun _ => .asNode _
theorem validatePrefixSum : ∀ (n : Nat) (i : Id), Peek (BT.validatePrefixSum n i : M K V Unit)
  | 0, _ => .fatal
  | n + 1, i => by
      have ih := validatePrefixSum n
      unfold BT.validatePrefixSum
      refine .bind (.getN _) fun _ => .bind (.getP _) fun _ => .bind ?_ fun _ => .bind ?_ fun _ => ?_
      · split
        · exact .pure _
        · refine .bind (.getP _) fun _ => .bind ?_ fun _ => .bind (.attempt (ih _)) fun _ => .pure _
          split
          exacts [.throw _, .pure _]
      · split
        · exact .pure _
        · refine .bind (.getP _) fun _ => .bind ?_ fun _ => .bind (.deref _) fun _ => .bind (ih _) fun _ => .pure _
          split
          exacts [.throw _, .pure _]
      · split
        exacts [.throw _, .pure _]
end Peek

theorem Peek.inv {α : Type} {m : M K V α} (h : Peek m) {w w' : World K V} {a : α} (e : m w = (.ok a, w')) : w' = w := by
  have := h.run w
  rw [e] at this
  exact this

theorem valid_inv {n : Nat} {b : Bool} {w w' : World K V} {a : Unit} (h : valid n b w = (.ok a, w')) : b = true ∧ w' = w := by
  cases b
  · cases h
  · cases h; exact ⟨rfl, rfl⟩

/-- What Validate checks of the node `i`, in memory with everything below, at most `d` levels: it records `n` items; the number of its entries is within
the limits of its tree; a leaf has `n` entries; of any other node the entries lead to nodes that name it as their parent and record `n` items together
with its leftmost child, and so does the root of its tree of sums. -/
def Checked (w : World K V) : Nat → Id → Nat → Prop
  | 0, _, _ => False
  | d + 1, i, n =>
    (w.node i).loaded = true ∧ (w.node i).items = n ∧
    ∃ T, (w.node i).kv = some T ∧ Exact T ∧ ((w.node i).root = true ∨ (w.trees (w.node i).tree).min ≤ T.toList.length) ∧
      T.toList.length ≤ (w.trees (w.node i).tree).max ∧
      ((w.node i).leaf = true → T.toList.length = n) ∧
      ((w.node i).leaf = false →
        (∃ r, (w.node i).psRoot = some r ∧ (w.ps r).parent = none ∧ (w.ps r).items = n) ∧
        ∃ n0 kids ns, n = n0 + ns.sum ∧ T.toList.map Prod.snd = kids.map Val.node ∧
          ((w.node i).left = none → n0 = 0) ∧
          (∀ c, (w.node i).left = some c → (w.node c).parent = some i ∧ Checked w d c n0) ∧
          List.Forall₂ (fun c m => (w.node c).parent = some i ∧ Checked w d c m) kids ns)

/-- `validateNode` on a loaded leaf. -/
def leafChecks (i : Id) (n : NodeS K V) : M K V Unit := do
  kvValidate i
  let num ← kvLen i
  valid 38 (num == n.items)
  let t ← getT n.tree
  valid 43 (n.root || num ≥ t.min)
  valid 47 (num ≤ t.max)

/-- `validateNode` on the leftmost child. -/
def leftChecks (i : Id) (n : NodeS K V) (rec : Id → M K V Unit) : M K V Nat :=
  match n.left with
  | none => pure 0
  | some l => validateChild 55 i rec l

/-- `validateNode` on a loaded inner node after the leftmost child. -/
def innerChecks (i : Id) (n : NodeS K V) (rec : Id → M K V Unit) (a : Nat) : M K V Unit := do
  kvValidate i
  let num ← kvLen i
  let t ← getT n.tree
  valid 79 (n.root || num ≥ t.min)
  valid 83 (num ≤ t.max)
  let b ← validateLoop i rec 0 num.toNat
  let childItems := a + b
  let n ← getN i
  valid 114 (childItems == n.items)
  match n.psRoot with
  | none => M.throw (.invalid 119)
  | some r => do
      let p ← getP r
      valid 124 p.parent.isNone
      valid 129 (childItems == p.items)
      validatePrefixSum (num.toNat + 1) r

/-- `validateNode` on a loaded node. -/
def nodeChecks (i : Id) (rec : Id → M K V Unit) : M K V Unit := do
  let n ← getN i
  if n.leaf then leafChecks i n
  else do
    let a ← leftChecks i n rec
    innerChecks i n rec a

theorem validateNode_succ (cmp : Compare K) (n : Nat) (i : Id) :
    (validateNode cmp (n + 1) i : M K V Unit) = (do validateLoad cmp i; nodeChecks i (validateNode cmp n)) := rfl

/-- GetNode is not called fewer times than before. -/
structure Grows {α : Type} (m : M K V α) : Prop where
  run : ∀ w, w.env.gets ≤ (m w).2.env.gets

namespace Grows
variable {α β : Type}
theorem bind {m : M K V α} {f : α → M K V β} (h : Grows m) (g : ∀ a, Grows (f a)) : Grows (m >>= f) := by
  refine ⟨fun w => ?_⟩
  show _ ≤ (M.bind m f w).2.env.gets
  have := h.run w
  unfold M.bind
  rcases hm : m w with ⟨_ | _ | _, w'⟩ <;> rw [hm] at this <;> simp only at this ⊢
  · exact this.trans ((g _).run _)
  · exact this
  · exact this
theorem peek {m : M K V α} (h : Peek m) : Grows m := ⟨fun w => by rw [h.run]⟩
theorem validateLoad (cmp : Compare K) (i : Id) : Grows (BT.validateLoad cmp i : M K V Unit) := by
  refine .bind (.peek (.getN _)) fun _ => ?_
  split
  · exact ⟨fun w => by rw [loadNode_gets]; exact Nat.le_succ _⟩
  · exact .peek (.pure _)
theorem validateChild (n : Nat) (i c : Id) {rec : Id → M K V Unit} (h : ∀ c, Grows (rec c)) : Grows (BT.validateChild n i rec c) :=
  .bind (.peek (.getN _)) fun _ => .bind (.peek (.valid _ _)) fun _ => .bind (h _) fun _ => .bind (.peek (.getN _)) fun _ => .peek (.pure _)
theorem validateLoop (i : Id) {rec : Id → M K V Unit} (h : ∀ c, Grows (rec c)) : ∀ k n : Nat, Grows (BT.validateLoop i rec k n)
  | _, 0 => .peek (.pure _)
  | k, n + 1 => .bind (.peek (.kvChildOk _ _ _)) fun _ => .bind (.validateChild _ _ _ h) fun _ => .bind (validateLoop i h (k + 1) n) fun _ => .peek (.pure _)
theorem innerEnd (i : Id) (num : Int) (k : Nat) : Grows (do
    let n ← BT.getN i
    BT.valid 114 (k == n.items)
    match n.psRoot with
    | none => M.throw (.invalid 119)
    | some r => do
        let p ← BT.getP r
        BT.valid 124 p.parent.isNone
        BT.valid 129 (k == p.items)
        BT.validatePrefixSum (num.toNat + 1) r : M K V Unit) := by
  refine .bind (.peek (.getN _)) fun _ => .bind (.peek (.valid _ _)) fun _ => ?_
  split
  · exact .peek (.throw _)
  · exact .bind (.peek (.getP _)) fun _ => .bind (.peek (.valid _ _)) fun _ => .bind (.peek (.valid _ _)) fun _ => .peek (.validatePrefixSum _ _)
theorem innerChecks (i : Id) (n : NodeS K V) {rec : Id → M K V Unit} (h : ∀ c, Grows (rec c)) (a : Nat) : Grows (Props.innerChecks i n rec a) :=
  .bind (.peek (.kvValidate _)) fun _ => .bind (.peek (.kvLen _)) fun _ => .bind (.peek (.getT _)) fun _ =>
    .bind (.peek (.valid _ _)) fun _ => .bind (.peek (.valid _ _)) fun _ => .bind (.validateLoop _ h _ _) fun _ => .innerEnd _ _ _
theorem nodeChecks (i : Id) {rec : Id → M K V Unit} (h : ∀ c, Grows (rec c)) : Grows (Props.nodeChecks i rec) := by
  refine .bind (.peek (.getN _)) fun _ => ?_
  split
  · exact .bind (.peek (.kvValidate _)) fun _ => .bind (.peek (.kvLen _)) fun _ => .bind (.peek (.valid _ _)) fun _ => .bind (.peek (.getT _)) fun _ =>
      .bind (.peek (.valid _ _)) fun _ => .peek (.valid _ _)
  · refine .bind ?_ fun _ => .innerChecks _ _ h _
    unfold leftChecks
    split
    · exact .peek (.pure _)
    · exact .validateChild _ _ _ h
theorem validateNode (cmp : Compare K) : ∀ (n : Nat) (i : Id), Grows (BT.validateNode cmp n i : M K V Unit)
  | 0, _ => .peek .fatal
  | n + 1, i => by
      rw [validateNode_succ]
      exact .bind (.validateLoad _ _) fun _ => .nodeChecks _ (validateNode cmp n)
end Grows

theorem Grows.inv {α : Type} {m : M K V α} (h : Grows m) {w w' : World K V} {a : Out α} (e : m w = (a, w')) : w.env.gets ≤ w'.env.gets := by
  have := h.run w
  rwa [e] at this

theorem validateChild_quiet {n : Nat} {i c : Id} {rec : Id → M K V Unit} {Q : World K V → Id → Prop} {w w' : World K V} {m : Nat}
    (hrec : ∀ {w w' : World K V} {c : Id}, rec c w = (.ok (), w') → w'.env.gets = w.env.gets → w' = w ∧ Q w c)
    (h : validateChild n i rec c w = (.ok m, w')) (hq : w'.env.gets = w.env.gets) :
    w' = w ∧ (w.node c).parent = some i ∧ Q w c ∧ m = (w.node c).items := by
  obtain ⟨_, w0, h0, h⟩ := bind_inv h
  cases h0
  obtain ⟨_, w1, h1, h⟩ := bind_inv h
  obtain ⟨h2, h2'⟩ := valid_inv h1
  rw [h2'] at h
  obtain ⟨_, w2, h3, h⟩ := bind_inv h
  obtain ⟨_, w3, h5, h⟩ := bind_inv h
  cases h5
  cases h
  obtain ⟨rfl, h6⟩ := hrec h3 hq
  exact ⟨rfl, by simpa using h2, h6, rfl⟩

theorem kvChildOk_inv {n : Nat} {i c : Id} {k : Nat} {w w' : World K V} (h : kvChildOk n i k w = (.ok c, w')) {T : LLRB.Tree K (Val V)} (hT : (w.node i).kv = some T) (hx : Exact T) :
    w' = w ∧ (T.toList.map Prod.snd)[k]? = some (.node c) := by
  refine ⟨(Peek.kvChildOk _ _ _).inv h, ?_⟩
  unfold kvChildOk kvGetByIndex at h
  obtain ⟨x, w1, h1, h⟩ := bind_inv h
  obtain ⟨T', w2, h2, h1⟩ := bind_inv h1
  obtain ⟨h3', h3⟩ := kvOf_inv h2
  rw [hT] at h3
  cases h3
  rw [LLRB.Tree.getByIndex_spec (Exact.iff.1 hx)] at h1
  cases h1
  cases ha : at? (k : Int) T.toList with
  | none => simp only [ha] at h; cases h
  | some y =>
    simp only [ha] at h
    obtain ⟨y, v⟩ := y
    cases v with
    | item _ => cases h
    | node c' =>
      cases h
      have : T.toList[k]? = some (y, .node c) := by simpa [at?] using ha
      rw [List.getElem?_map, this]
      rfl

theorem validateLoop_quiet {i : Id} {rec : Id → M K V Unit} {Q : World K V → Id → Prop} (hg : ∀ c, Grows (rec c))
    (hrec : ∀ {w w' : World K V} {c : Id}, rec c w = (.ok (), w') → w'.env.gets = w.env.gets → w' = w ∧ Q w c) {T : LLRB.Tree K (Val V)} (hx : Exact T) :
    ∀ {n k : Nat} {w w' : World K V} {b : Nat}, (w.node i).kv = some T → k + n = T.toList.length → validateLoop i rec k n w = (.ok b, w') →
      w'.env.gets = w.env.gets → w' = w ∧ ∃ kids ns, (T.toList.map Prod.snd).drop k = kids.map Val.node ∧ b = ns.sum ∧
        List.Forall₂ (fun c m => (w.node c).parent = some i ∧ Q w c ∧ m = (w.node c).items) kids ns
  | 0, k, w, w', b, hT, hk, h, _ => by
      cases h
      refine ⟨rfl, [], [], ?_, rfl, .nil⟩
      rw [List.map_nil, List.drop_eq_nil_iff, List.length_map]
      omega
  | n + 1, k, w, w', b, hT, hk, h, hq => by
      obtain ⟨c, w1, h1, h⟩ := bind_inv h
      obtain ⟨hw1, hc⟩ := kvChildOk_inv h1 hT hx
      rw [hw1] at h
      obtain ⟨a, w2, h2, h⟩ := bind_inv h
      obtain ⟨b', w3, h3, h⟩ := bind_inv h
      cases h
      have g1 := (Grows.validateChild _ _ _ hg).inv h2
      have g2 := (Grows.validateLoop _ hg _ _).inv h3
      obtain ⟨rfl, q1, q2, q3⟩ := validateChild_quiet hrec h2 (by omega)
      obtain ⟨rfl, kids, ns, k1, k2, k3⟩ := validateLoop_quiet hg hrec hx hT (by omega) h3 (by omega)
      refine ⟨rfl, c :: kids, a :: ns, ?_, by rw [k2, List.sum_cons], .cons ⟨q1, q2, q3⟩ k3⟩
      rw [List.map_cons, ← k1]
      obtain ⟨hlt, hc⟩ := List.getElem?_eq_some_iff.1 hc
      rw [List.drop_eq_getElem_cons hlt, hc]

theorem kvValidate_inv {i : Id} {w w' : World K V} {a : Unit} (h : kvValidate i w = (.ok a, w')) : w' = w ∧ ∃ T, (w.node i).kv = some T ∧ Exact T := by
  refine ⟨(Peek.kvValidate i).inv h, ?_⟩
  obtain ⟨T, w1, h1, h⟩ := bind_inv h
  obtain ⟨-, h2⟩ := kvOf_inv h1
  refine ⟨T, h2, (C49_llrb_validate_iff T).1 ?_⟩
  cases hv : T.validate with
  | none => rfl
  | some e => rw [hv] at h; cases h

theorem kvLen_inv {i : Id} {w w' : World K V} {n : Int} (h : kvLen i w = (.ok n, w')) {T : LLRB.Tree K (Val V)} (hT : (w.node i).kv = some T) (hx : Exact T) :
    w' = w ∧ n = T.toList.length := by
  obtain ⟨T', w1, h1, h⟩ := bind_inv h
  obtain ⟨rfl, h2⟩ := kvOf_inv h1
  rw [hT] at h2
  cases h2
  cases h
  exact ⟨rfl, (Exact.iff.1 hx).one_len⟩

theorem validateNode_quiet {cmp : Compare K} : ∀ {n : Nat} {i : Id} {w w' : World K V}, validateNode cmp n i w = (.ok (), w') → w'.env.gets = w.env.gets →
    w' = w ∧ Checked w n i (w.node i).items
  | 0, i, w, w', h, hq => by cases h
  | n + 1, i, w, w', h, hq => by
      have ih : ∀ {w w' : World K V} {c : Id}, validateNode cmp n c w = (.ok (), w') → w'.env.gets = w.env.gets → w' = w ∧ Checked w n c (w.node c).items :=
        fun h hq => validateNode_quiet h hq
      have hg := Grows.validateNode (V := V) cmp n
      rw [validateNode_succ] at h
      obtain ⟨_, w1, h1, t⟩ := bind_inv h
      have g2 := (Grows.nodeChecks i hg).inv t
      have hl : w1 = w ∧ (w.node i).loaded = true := by
        unfold validateLoad at h1
        rw [getN_bind] at h1
        cases hlo : (w.node i).loaded with
        | true =>
          rw [hlo] at h1
          cases h1
          exact ⟨rfl, rfl⟩
        | false =>
          rw [hlo] at h1
          have := loadNode_gets cmp (w.node i).tree i w
          simp only [Bool.not_false, if_true] at h1
          rw [h1] at this
          simp only at this
          omega
      obtain ⟨hw, hlo⟩ := hl
      rw [hw] at t
      clear h h1 g2 hw
      unfold nodeChecks at t
      rw [getN_bind] at t
      cases hlf : (w.node i).leaf with
      | true =>
        simp only [hlf, if_true] at t
        obtain ⟨_, w2, h2, t⟩ := bind_inv t
        obtain ⟨e2, T, hT, hx⟩ := kvValidate_inv h2
        rw [e2] at t
        obtain ⟨num, w3, h3, t⟩ := bind_inv t
        obtain ⟨e3, e4⟩ := kvLen_inv h3 hT hx
        rw [e3] at t
        obtain ⟨_, w4, h4, t⟩ := bind_inv t
        obtain ⟨c1, e5⟩ := valid_inv h4
        rw [e5] at t
        obtain ⟨_, w5, h5, t⟩ := bind_inv t
        cases h5
        obtain ⟨_, w6, h6, t⟩ := bind_inv t
        obtain ⟨c2, e6⟩ := valid_inv h6
        rw [e6] at t
        obtain ⟨c3, e7⟩ := valid_inv t
        rw [e4] at c1 c2 c3
        refine ⟨e7, hlo, rfl, T, hT, hx, ?_, ?_, fun _ => ?_, fun hf => absurd (hlf.symm.trans hf) (by simp)⟩
        · simpa using c2
        · simpa using c3
        · simpa using c1
      | false =>
        simp only [hlf, Bool.false_eq_true, if_false] at t
        obtain ⟨a, wl, hleft, t⟩ := bind_inv t
        have gl : w.env.gets ≤ wl.env.gets := by
          unfold leftChecks at hleft
          cases hc : (w.node i).left with
          | none => rw [hc] at hleft; cases hleft; exact Nat.le_refl _
          | some c => rw [hc] at hleft; exact (Grows.validateChild _ _ _ hg).inv hleft
        have gr := (Grows.innerChecks i (w.node i) hg a).inv t
        have hL : wl = w ∧ ((w.node i).left = none → a = 0) ∧ ∀ c, (w.node i).left = some c → (w.node c).parent = some i ∧ Checked w n c a := by
          unfold leftChecks at hleft
          cases hc : (w.node i).left with
          | none =>
            rw [hc] at hleft
            cases hleft
            exact ⟨rfl, fun _ => rfl, fun c h => absurd h (by simp)⟩
          | some c =>
            rw [hc] at hleft
            obtain ⟨e1, e2, e3, e4⟩ := validateChild_quiet ih hleft (by omega)
            refine ⟨e1, fun h => absurd h (by simp), fun c' h => ?_⟩
            cases h
            rw [e4]
            exact ⟨e2, e3⟩
        obtain ⟨ew, hL⟩ := hL
        rw [ew] at t
        obtain ⟨_, w2, h2, t⟩ := bind_inv t
        obtain ⟨e2, T, hT, hx⟩ := kvValidate_inv h2
        rw [e2] at t
        obtain ⟨num, w3, h3, t⟩ := bind_inv t
        obtain ⟨e3, e4⟩ := kvLen_inv h3 hT hx
        rw [e3] at t
        obtain ⟨_, w5, h5, t⟩ := bind_inv t
        cases h5
        obtain ⟨_, w6, h6, t⟩ := bind_inv t
        obtain ⟨c2, e6⟩ := valid_inv h6
        rw [e6] at t
        obtain ⟨_, w7, h7, t⟩ := bind_inv t
        obtain ⟨c3, e7⟩ := valid_inv h7
        rw [e7] at t
        obtain ⟨b, w8, h8, t⟩ := bind_inv t
        have g8 := (Grows.validateLoop i hg 0 num.toNat).inv h8
        have g9 := (Grows.innerEnd i num (a + b)).inv t
        obtain ⟨e8, kids, ns, k1, k2, k3⟩ := validateLoop_quiet hg ih hx hT (by rw [e4]; simp) h8 (by omega)
        rw [e8] at t
        obtain ⟨_, w9, h9, t⟩ := bind_inv t
        cases h9
        obtain ⟨_, w10, h10, t⟩ := bind_inv t
        obtain ⟨c4, e10⟩ := valid_inv h10
        rw [e10] at t
        cases hr : (w.node i).psRoot with
        | none => rw [hr] at t; cases t
        | some r =>
          simp only [hr] at t
          obtain ⟨_, w11, h11, t⟩ := bind_inv t
          cases h11
          obtain ⟨_, w12, h12, t⟩ := bind_inv t
          obtain ⟨c5, e12⟩ := valid_inv h12
          rw [e12] at t
          obtain ⟨_, w13, h13, t⟩ := bind_inv t
          obtain ⟨c6, e13⟩ := valid_inv h13
          rw [e13] at t
          have e14 := (Peek.validatePrefixSum _ _).inv t
          rw [e4] at c2 c3
          rw [beq_iff_eq] at c4 c6
          refine ⟨e14, hlo, rfl, T, hT, hx, ?_, ?_, fun hf => absurd (hlf.symm.trans hf) (by simp), fun _ => ⟨⟨r, hr, ?_, ?_⟩, a, kids, ns, ?_, ?_, hL.1, hL.2, ?_⟩⟩
          · simpa using c2
          · simpa using c3
          · simpa using c5
          · rw [← c6, c4]
          · rw [← c4, k2]
          · simpa using k1
          · exact k3.imp fun c m h => ⟨h.1, by rw [h.2.2]; exact h.2.1⟩

/-- C49: if Validate returns nil on a B+Tree in whatever state, having called GetNode not once, nothing has changed and the whole tree is in memory and as
`Checked` says: in particular Len returns the number of items in the leaves. -/
theorem C49_btree_validated {cmp : Compare K} {t : TreeId} {fuel : Nat} {w : World K V} (h : (validate cmp t fuel w).1 = .ok ())
    (hq : (validate cmp t fuel w).2.env.gets = w.env.gets) :
    (validate cmp t fuel w).2 = w ∧ ∃ r n, (w.trees t).root = some r ∧ Checked w fuel r n ∧ (len cmp t w).1 = .ok (n : Int) := by
  rcases e : validate cmp t fuel w with ⟨o, w'⟩
  rw [e] at h hq
  simp only at h hq
  subst h
  obtain ⟨r, w1, h1, h2⟩ := bind_inv e
  have h3 := rootOf_inv h1
  rw [h3] at h1 h2
  obtain ⟨h4, h5⟩ := validateNode_quiet h2 hq
  have hroot : (w.trees t).root = some r := by
    unfold rootOf at h1
    rw [getT_bind] at h1
    cases hr : (w.trees t).root <;> rw [hr] at h1 <;> cases h1
    rfl
  refine ⟨h4, r, _, hroot, h5, ?_⟩
  have hl : (w.node r).loaded = true := by
    cases fuel with
    | zero => cases h2
    | succ fuel => exact h5.1
  unfold len
  rw [bind_ok h1]
  have hv : visit cmp t false r w = (.ok (), (incCacheHits t w).2) := by
    unfold visit
    rw [getN_bind, hl]
    have hi : incCacheHits t w = (.ok (), (incCacheHits t w).2) := by
      unfold incCacheHits onCtl
      split <;> rfl
    simp only [if_true]
    rw [bind_ok hi]
    rfl
  rw [bind_ok hv]
  show Out.ok (((incCacheHits t w).2.node r).items : Int) = _
  unfold incCacheHits onCtl
  split <;> rfl

end

/-- Twelve items: six leaves below one node. -/
def dozen : Calls Nat Nat := (.new 0, calmEnv) :: (List.range 12).map (fun k => (.op 0 (.put (10 * k) k), calmEnv))

example : (validate Sample.cmp 0 60 (sampleSetup.now 60 dozen)).1 = .ok () ∧
    (validate Sample.cmp 0 60 (sampleSetup.now 60 dozen)).2.env.gets = (sampleSetup.now 60 dozen).env.gets := by decide +kernel

/-- The same with a wrong sum in the right half of the root's tree of sums. -/
def dozenBad : World Nat Nat := { sampleSetup.now 60 dozen with ps := fun i => if i = (0, 4) then { (sampleSetup.now 60 dozen).ps (0, 4) with items := 1 } else (sampleSetup.now 60 dozen).ps i }

/-- C49: Validate does not look at the right halves of the trees of sums: it accepts a state in which GetByIndex skips an item. -/
theorem C49_btree_sums_unchecked : ∃ w : World Nat Nat, (validate Sample.cmp 0 60 w).1 = .ok () ∧ (getByKey Sample.cmp 0 60 70 w).1 = .ok (some 7) ∧
    (getByIndex Sample.cmp 0 60 6 w).1 = .ok (some (60, 6)) ∧ (getByIndex Sample.cmp 0 60 7 w).1 = .ok (some (80, 8)) :=
  ⟨dozenBad, by decide +kernel⟩

end SM.Props

import Verif.BTree.Codec

/-!
loadNode on the beginning of a node's bytes only (btree.go:2717-2874): it does what it does to all of them when one of the unpack calls fails.
-/

namespace SM.BT

section
variable {K V : Type} {C : Codec K V}

/-- The unpack callbacks reject a key or value that is cut short. -/
structure Codec.Strict (C : Codec K V) : Prop where
  key : ∀ k p q, C.packKey k = p ++ q → q ≠ [] → C.unpackKey p = none
  value : ∀ v p q, C.packValue v = p ++ q → q ≠ [] → C.unpackValue p = none

/-- The action calls no callback. -/
def Callless {α : Type} (m : M K V α) : Prop := ∀ w, (m w).2.env = w.env

theorem Callless.pure {α : Type} (a : α) : Callless (pure a : M K V α) := fun _ => rfl
theorem Callless.throw {α : Type} (e : Err) : Callless (M.throw e : M K V α) := fun _ => rfl
theorem Callless.fatal {α : Type} : Callless (M.fatal : M K V α) := fun _ => rfl

theorem Callless.bind {α β : Type} {m : M K V α} {f : α → M K V β} (h : Callless m) (hf : ∀ a, Callless (f a)) : Callless (m >>= f) := fun w => by
  have h1 := h w
  show (M.bind m f w).2.env = _
  unfold M.bind
  rcases hm : m w with ⟨_ | _ | _, w'⟩ <;> rw [hm] at h1
  · exact (hf _ _).trans h1
  · exact h1
  · exact h1

theorem Callless.attempt {α : Type} {m : M K V α} (h : Callless m) : Callless (M.attempt m) := fun w => by
  have h1 := h w
  unfold M.attempt
  rcases hm : m w with ⟨_ | _ | _, w'⟩ <;> rw [hm] at h1 <;> exact h1

theorem Callless.deref {α : Type} (o : Option α) : Callless (M.deref o : M K V α) := by
  cases o
  · exact Callless.fatal
  · exact Callless.pure _

theorem Callless.check (n : Nat) (b : Bool) : Callless (M.check n b : M K V Unit) := by
  unfold M.check
  split
  · exact Callless.pure _
  · exact Callless.throw _

theorem Callless.getN (i : Id) : Callless (getN i : M K V (NodeS K V)) := fun _ => rfl
theorem Callless.modN (i : Id) (f : NodeS K V → NodeS K V) : Callless (modN i f : M K V Unit) := fun _ => rfl
theorem Callless.modT (τ : TreeId) (f : TreeS → TreeS) : Callless (modT τ f : M K V Unit) := fun _ => rfl
theorem Callless.alloc (n : NodeS K V) : Callless (alloc n : M K V Id) := fun _ => rfl

theorem Callless.kvPut (cmp : Compare K) (i : Id) (k : K) (v : Val V) : Callless (kvPut cmp i k v) := by
  refine ((Callless.getN i).bind fun _ => Callless.deref _).bind fun t => ?_
  unfold kvFinish
  split
  · exact Callless.fatal
  · refine (Callless.modN _ _).bind fun _ => ?_
    split
    · exact Callless.throw _
    · exact Callless.pure _

theorem Callless.initNodeAsEvicted (τ : TreeId) (i : Id) : Callless (initNodeAsEvicted τ i : M K V Unit) := fun w => by
  unfold BT.initNodeAsEvicted onLru
  split
  · split <;> rfl
  · rfl

/-- `m` does not succeed, and if the unpack call after `k` more fails it does what `m'` does. -/
def Short {α : Type} (m m' : M K V α) (k : Nat) : Prop :=
  ∀ w, (∀ a, (m w).1 ≠ .ok a) ∧ (w.env.unpackFails (w.env.unpacks + k) = true → m w = m' w)

/-- `m` and `m'` do the same but for the next unpack call, which fails in `m`. -/
theorem Short.here {α β γ : Type} {r : Option γ} {f : α → M K V β} {f' : γ → M K V β} : Short (unpackAs none >>= f) (unpackAs r >>= f') 0 := fun w => by
  have hb : ∀ {γ : Type} (r : Option γ) (f : γ → M K V β), w.env.unpackFails w.env.unpacks = true →
      (unpackAs r >>= f) w = (.err .codec, { w with env := { w.env with unpacks := w.env.unpacks + 1 } }) := fun r f h => by
    show M.bind (M.bind unpack _) _ w = _
    simp only [M.bind, unpack, h, if_true]
  refine ⟨fun a => ?_, fun h => ?_⟩
  · show (M.bind (M.bind unpack _) _ w).1 ≠ _
    simp only [M.bind, unpack]
    cases w.env.unpackFails w.env.unpacks <;> simp [M.throw]
  · rw [hb _ _ h, hb _ _ h]

theorem Short.next {α β : Type} {a a' : α} {f f' : α → M K V β} {k : Nat} (h : Short (f a) (f' a') k) :
    Short (unpackAs (some a) >>= f) (unpackAs (some a') >>= f') (k + 1) := fun w => by
  have hb : ∀ (a : α) (f : α → M K V β), (unpackAs (some a) >>= f) w = if w.env.unpackFails w.env.unpacks = true then
      (.err .codec, { w with env := { w.env with unpacks := w.env.unpacks + 1 } }) else f a { w with env := { w.env with unpacks := w.env.unpacks + 1 } } := fun a f => by
    show M.bind (M.bind unpack _) _ w = _
    simp only [M.bind, unpack]
    cases w.env.unpackFails w.env.unpacks <;> rfl
  rw [hb, hb]
  split
  · exact ⟨by simp, fun _ => rfl⟩
  · have := h { w with env := { w.env with unpacks := w.env.unpacks + 1 } }
    refine ⟨this.1, fun h => this.2 ?_⟩
    rw [← h]
    exact congrArg w.env.unpackFails (by omega : w.env.unpacks + 1 + k = w.env.unpacks + (k + 1))

theorem Short.skip {α β : Type} {m : M K V α} {f f' : α → M K V β} {k : Nat} (hm : Callless m) (h : ∀ a, Short (f a) (f' a) k) : Short (m >>= f) (m >>= f') k := fun w => by
  have h1 := hm w
  show (∀ a, (M.bind m f w).1 ≠ _) ∧ (_ → M.bind m f w = M.bind m f' w)
  unfold M.bind
  rcases hq : m w with ⟨x | _ | _, w'⟩ <;> rw [hq] at h1
  · have := h x w'
    dsimp only at h1
    rw [h1] at this
    exact this
  · exact ⟨by simp, fun _ => rfl⟩
  · exact ⟨by simp, fun _ => rfl⟩

/-- What comes after what fails does not matter. -/
theorem Short.bind {α β : Type} {m m' : M K V α} {f f' : α → M K V β} {k : Nat} (h : Short m m' k) : Short (m >>= f) (m' >>= f') k := fun w => by
  obtain ⟨h1, h2⟩ := h w
  have hn : ∀ a, (M.bind m f w).1 ≠ .ok a := fun a => by
    unfold M.bind
    rcases hq : m w with ⟨x | _ | _, w'⟩
    · rw [hq] at h1; exact absurd rfl (h1 x)
    · simp
    · simp
  refine ⟨hn, fun hk => ?_⟩
  have h3 := h2 hk
  show M.bind m f w = M.bind m' f' w
  unfold M.bind
  rw [← h3]
  rcases hq : m w with ⟨x | _ | _, w'⟩
  · rw [hq] at h1; exact absurd rfl (h1 x)
  · rfl
  · rfl

theorem Short.by_here {α β : Type} {r : Option (α × Nat)} {p p' : Bytes} {f : α × Bytes → M K V β} {f' : α × Bytes → M K V β} :
    Short (unpackBy none p >>= f) (unpackBy r p' >>= f') 0 := by
  unfold unpackBy
  simp only [bind_assoc]
  exact Short.here

theorem Short.by_next {α β : Type} {a : α} {x p p' : Bytes} {f f' : α × Bytes → M K V β} {k : Nat} (h : Short (f (a, p)) (f' (a, p')) k) :
    Short (unpackBy (some (a, x.length)) (x ++ p) >>= f) (unpackBy (some (a, x.length)) (x ++ p') >>= f') (k + 1) := by
  unfold unpackBy
  simp only [bind_assoc]
  refine Short.next ?_
  simpa using h

/-! ### Where the bytes end -/

theorem takeU64_short {p : Bytes} (h : p.length < 8) : takeU64 p = none := if_pos h

/-- Of two pieces either the first is cut, or it is there and the second is cut. -/
theorem cut_append {x y p q : Bytes} (h : x ++ y = p ++ q) :
    (∃ z, z ≠ [] ∧ x = p ++ z) ∨ ∃ p', p = x ++ p' ∧ y = p' ++ q := by
  rcases List.append_eq_append_iff.1 h with ⟨a, h1, h2⟩ | ⟨a, h1, h2⟩
  · exact .inr ⟨a, h1, h2⟩
  · by_cases ha : a = []
    · subst ha
      refine .inr ⟨[], by simpa using h1.symm, by simpa using h2.symm⟩
    · exact .inl ⟨a, ha, h1⟩

theorem cut_u64 {n : Nat} {p z : Bytes} (h : u64 n = p ++ z) (hz : z ≠ []) : takeU64 p = none := by
  refine takeU64_short ?_
  have := u64_length n
  rw [h, List.length_append] at this
  have := List.length_pos_iff.2 hz
  omega

theorem cut_ref {c : Ref × Nat} {p z : Bytes} (hc : c.1.num < 2 ^ 64 ∧ c.1.off < 2 ^ 64 ∧ c.1.len < 2 ^ 64 ∧ c.2 < 2 ^ 64) (h : refB c = p ++ z) (hz : z ≠ []) : takeRef p = none := by
  obtain ⟨h1, h2, h3, h4⟩ := hc
  simp only [refB, List.append_assoc] at h
  unfold takeRef
  rcases cut_append h with ⟨y, hy, e⟩ | ⟨p, rfl, g1⟩
  · simp [cut_u64 e hy]
  rcases cut_append g1 with ⟨y, hy, e⟩ | ⟨p, rfl, g2⟩
  · simp [takeU64_u64 h1, cut_u64 e hy]
  rcases cut_append g2 with ⟨y, hy, e⟩ | ⟨p, rfl, g3⟩
  · simp [takeU64_u64 h1, takeU64_u64 h2, cut_u64 e hy]
  · simp [takeU64_u64 h1, takeU64_u64 h2, takeU64_u64 h3, cut_u64 g3 hz]

theorem cut_bool {b : Bool} {p z : Bytes} (h : boolB b = p ++ z) (hz : z ≠ []) : takeBool p = none := by
  have : p = [] := by
    have h1 := congrArg List.length h
    have := List.length_pos_iff.2 hz
    simp [boolB] at h1
    exact List.eq_nil_of_length_eq_zero (by omega)
  rw [this]; rfl

theorem cut_head {n : Nat} {r l : Bool} {p z : Bytes} (hn : n < 2 ^ 64) (h : headB n r l = p ++ z) (hz : z ≠ []) : takeHead p = none := by
  simp only [headB, List.append_assoc] at h
  unfold takeHead
  rcases cut_append h with ⟨y, hy, e⟩ | ⟨p, rfl, g1⟩
  · simp [cut_u64 e hy]
  rcases cut_append g1 with ⟨y, hy, e⟩ | ⟨p, rfl, g2⟩
  · simp [takeU64_u64 hn, cut_bool e hy]
  · simp [takeU64_u64 hn, takeBool_boolB, cut_bool g2 hz]

/-! ### The loops -/

theorem loadLeafLoopB_short (hC : C.Inverse) (hS : C.Strict) (cmp : Compare K) (node : Id) : ∀ (l : List (K × V)) {p q : Bytes}, itemBytes C l = p ++ q → q ≠ [] →
    ∃ k, Short (loadLeafLoopB C cmp node l.length p) (loadLeafLoopB C cmp node l.length (itemBytes C l)) k
  | [], p, q, h, hq => by simp [itemBytes] at h; exact absurd h.2 hq
  | (k, v) :: l, p, q, h, hq => by
    have e : itemBytes C ((k, v) :: l) = C.packKey k ++ (C.packValue v ++ itemBytes C l) := by simp [itemBytes]
    rw [e] at h ⊢
    rw [List.length_cons, loadLeafLoopB, loadLeafLoopB]
    rcases cut_append h with ⟨y, hy, e⟩ | ⟨p, rfl, g1⟩
    · rw [hS.key k p y e hy]
      exact ⟨0, Short.by_here⟩
    rw [hC.key, hC.key]
    rcases cut_append g1 with ⟨y, hy, e⟩ | ⟨p, rfl, g2⟩
    · refine ⟨1, Short.by_next ?_⟩
      dsimp only
      rw [hS.value v p y e hy]
      exact Short.by_here
    · obtain ⟨j, hj⟩ := loadLeafLoopB_short hC hS cmp node l g2 hq
      refine ⟨j + 1 + 1, Short.by_next ?_⟩
      dsimp only
      rw [hC.value, hC.value]
      refine Short.by_next ?_
      exact Short.skip (Callless.kvPut _ _ _ _) fun _ => Short.skip (Callless.check _ _) fun _ => hj

theorem loadInnerLoopB_short (hC : C.Inverse) (hS : C.Strict) (cmp : Compare K) (τ : TreeId) (node : Id) : ∀ (l : List (K × (Ref × Nat))) {p q : Bytes},
    (∀ c ∈ l.map Prod.snd, c.1.num < 2 ^ 64 ∧ c.1.off < 2 ^ 64 ∧ c.1.len < 2 ^ 64 ∧ c.2 < 2 ^ 64) → kidBytes C l = p ++ q → q ≠ [] →
    ∃ k, Short (loadInnerLoopB C cmp τ node l.length p) (loadInnerLoopB C cmp τ node l.length (kidBytes C l)) k
  | [], p, q, _, h, hq => by simp [kidBytes] at h; exact absurd h.2 hq
  | (k, c) :: l, p, q, hc, h, hq => by
    have e : kidBytes C ((k, c) :: l) = C.packKey k ++ (refB c ++ kidBytes C l) := by simp [kidBytes]
    have hc0 := hc c (by simp)
    rw [e] at h ⊢
    rw [List.length_cons, loadInnerLoopB, loadInnerLoopB]
    rcases cut_append h with ⟨y, hy, e⟩ | ⟨p, rfl, g1⟩
    · rw [hS.key k p y e hy]
      exact ⟨0, Short.by_here⟩
    rw [hC.key, hC.key]
    rcases cut_append g1 with ⟨y, hy, e⟩ | ⟨p, rfl, g2⟩
    · refine ⟨1, Short.by_next ?_⟩
      dsimp only
      rw [cut_ref hc0 e hy]
      exact Short.here
    · obtain ⟨j, hj⟩ := loadInnerLoopB_short hC hS cmp τ node l (fun c h => hc c (by simp only [List.map_cons, List.mem_cons]; exact .inr h)) g2 hq
      refine ⟨j + 1 + 1, Short.by_next ?_⟩
      dsimp only
      rw [takeRef_refB hc0, takeRef_refB hc0]
      refine Short.next ?_
      exact Short.skip (Callless.getN _) fun _ => Short.skip (Callless.alloc _) fun _ =>
        Short.skip ((Callless.kvPut _ _ _ _).attempt.bind fun _ => Callless.pure _) fun _ => Short.skip (Callless.initNodeAsEvicted _ _) fun _ => hj

theorem loadBodyB_short (hC : C.Inverse) (hS : C.Strict) {d : DiskNode K V} (hd : Fits d) (cmp : Compare K) (τ : TreeId) (node : Id) {p q : Bytes}
    (h : bodyBytes C d.body = p ++ q) (hq : q ≠ []) :
    ∃ k, Short (if d.body.isLeaf then loadLeafB C cmp node p else loadInnerB C cmp τ node p)
      (if d.body.isLeaf then loadLeafB C cmp node (bodyBytes C d.body) else loadInnerB C cmp τ node (bodyBytes C d.body)) k := by
  rcases hb : d.body with l | ⟨c0, cs⟩ | _ <;> rw [hb] at h <;> simp only [DiskBody.isLeaf, if_true, Bool.false_eq_true, if_false, bodyBytes] at h ⊢
  · unfold loadLeafB
    rcases cut_append h with ⟨y, hy, e⟩ | ⟨p, rfl, g1⟩
    · rw [cut_u64 e hy]
      exact ⟨0, Short.here⟩
    · rw [takeU64_u64 (hd.leaf l hb), takeU64_u64 (hd.leaf l hb)]
      obtain ⟨j, hj⟩ := loadLeafLoopB_short hC hS cmp node l g1 hq
      exact ⟨j + 1, Short.next hj.bind⟩
  · obtain ⟨h1, h2⟩ := hd.inner c0 cs hb
    have hc0 := h2 c0 (by simp)
    unfold loadInnerB
    rcases cut_append h with ⟨y, hy, e⟩ | ⟨p, rfl, g1⟩
    · rw [cut_u64 e hy]
      exact ⟨0, Short.here⟩
    rw [takeU64_u64 h1, takeU64_u64 h1]
    rcases cut_append g1 with ⟨y, hy, e⟩ | ⟨p, rfl, g2⟩
    · refine ⟨1, Short.next ?_⟩
      simp only [show ¬1 + cs.length = 0 by omega, if_false]
      rw [cut_ref hc0 e hy]
      exact Short.here
    · obtain ⟨j, hj⟩ := loadInnerLoopB_short hC hS cmp τ node cs (fun c hc => h2 c (List.mem_cons_of_mem _ hc)) g2 hq
      refine ⟨j + 1 + 1, Short.next ?_⟩
      simp only [show ¬1 + cs.length = 0 by omega, if_false, show 1 + cs.length - 1 = cs.length by omega]
      rw [takeRef_refB hc0, takeRef_refB hc0]
      refine Short.next ?_
      exact Short.skip (Callless.getN _) fun _ => Short.skip (Callless.alloc _) fun _ => Short.skip (Callless.modN _ _) fun _ => Short.skip (Callless.initNodeAsEvicted _ _) fun _ => hj.bind
  · unfold loadInnerB
    rw [cut_u64 h hq]
    exact ⟨0, Short.here⟩

/-- loadNode on the beginning of the bytes of a node. -/
theorem loadBytes_short (hC : C.Inverse) (hS : C.Strict) (cmp : Compare K) (τ : TreeId) (node : Id) {d : DiskNode K V} (hd : Fits d) {p q : Bytes}
    (h : encode C d = p ++ q) (hq : q ≠ []) : ∃ k, Short (loadBytes C cmp τ node p) (loadBytes C cmp τ node (encode C d)) k := by
  unfold loadBytes
  unfold encode at h ⊢
  rcases cut_append h with ⟨y, hy, e⟩ | ⟨p, rfl, g1⟩
  · rw [cut_head hd.items e hy]
    exact ⟨0, Short.skip (Callless.modN _ _) fun _ => Short.here⟩
  rw [takeHead_headB hd.items, takeHead_headB hd.items]
  rcases cut_append g1 with ⟨y, hy, e⟩ | ⟨p, rfl, g2⟩
  · have hr : d.root = true := by
      cases hr : d.root with
      | true => rfl
      | false =>
        rw [hr, if_neg (by simp)] at e
        exact absurd (List.append_eq_nil_iff.1 e.symm).2 hy
    rw [hr, if_pos rfl] at e
    refine ⟨1, Short.skip (Callless.modN _ _) fun _ => Short.next (Short.skip (Callless.modN _ _) fun _ => ?_)⟩
    simp only [hr, loadMaxB, if_true, bind_assoc]
    rw [cut_u64 e hy]
    exact Short.here
  · obtain ⟨j, hj⟩ := loadBodyB_short hC hS hd cmp τ node g2 hq
    by_cases hr : d.root = true
    · refine ⟨j + 1 + 1, Short.skip (Callless.modN _ _) fun _ => Short.next (Short.skip (Callless.modN _ _) fun _ => ?_)⟩
      simp only [hr, loadMaxB, if_true, bind_assoc, takeU64_u64 hd.max]
      refine Short.next (Short.skip (Callless.modT _ _) fun _ => ?_)
      simp only [pure_bind]
      exact hj.bind
    · refine ⟨j + 1, Short.skip (Callless.modN _ _) fun _ => Short.next (Short.skip (Callless.modN _ _) fun _ => ?_)⟩
      simp only [hr, loadMaxB, Bool.false_eq_true, if_false, List.nil_append, pure_bind]
      exact hj.bind

end
end SM.BT

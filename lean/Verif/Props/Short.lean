import Verif.BTree.Short
import Verif.Props.Codec

/-! A node's bytes cut short, by a torn write or a short read: property C61. -/

namespace SM.Props

open SM.BT

variable {K V : Type}

/-- **C61.** The bytes of a node are not the beginning of those of another. -/
theorem C61_prefix_free {C : Codec K V} (hC : C.Inverse) {d d' : DiskNode K V} (h : Fits d) (h' : Fits d') {q : Bytes} (he : encode C d = encode C d' ++ q) :
    d = d' ∧ q = [] := by
  have hq : q = [] := by
    by_contra hq
    have h1 := C37_trailing_garbage hC h' hq
    rw [← he, C37_roundtrip hC h] at h1
    cases h1
  refine ⟨?_, hq⟩
  rw [hq, List.append_nil] at he
  exact C37_injective hC h h' he

/-- **C61.** loadNode does not succeed on the beginning `p` of the bytes of a node, in any state; and it does to the tree, the cache and the rest what it does to all the
bytes if the unpack call at which they end fails: a short read is one of the failures of which the other theorems speak. -/
theorem C61_short_bytes {C : Codec K V} (hC : C.Inverse) (hS : C.Strict) (cmp : Compare K) (τ : TreeId) (node : Id) {d : DiskNode K V} (h : Fits d) {p q : Bytes}
    (he : encode C d = p ++ q) (hq : q ≠ []) :
    ∃ k, ∀ w : World K V, (loadBytes C cmp τ node p w).1 ≠ .ok () ∧
      (w.env.unpackFails (w.env.unpacks + k) = true → loadBytes C cmp τ node p w = loadBytes C cmp τ node (encode C d) w) := by
  obtain ⟨k, hk⟩ := loadBytes_short hC hS cmp τ node h he hq
  exact ⟨k, fun w => ⟨(hk w).1 (), (hk w).2⟩⟩

/-- **C61.** The same for loadNode as the other theorems have it: what it does when GetNode, asked for `d`, returns only `p`. -/
theorem C61_short_read {C : Codec K V} (hC : C.Inverse) (hS : C.Strict) (cmp : Compare K) (τ : TreeId) (node : Id) {d : DiskNode K V} (h : Fits d) {p q : Bytes}
    (he : encode C d = p ++ q) (hq : q ≠ []) :
    ∃ k, ∀ w : World K V, w.disk (w.node node).ref = some d →
      ((getNode (w.node node).ref >>= fun _ => loadBytes C cmp τ node p) w).1 ≠ .ok () ∧
      (w.env.unpackFails (w.env.unpacks + k) = true → (getNode (w.node node).ref >>= fun _ => loadBytes C cmp τ node p) w = loadNode cmp τ node w) := by
  obtain ⟨k, hk⟩ := C61_short_bytes hC hS cmp τ node h he hq
  refine ⟨k, fun w hw => ?_⟩
  have e : loadNode cmp τ node w = (getNode (w.node node).ref >>= fun d => loadBytes C cmp τ node (encode C d)) w := by
    rw [← C37_load_bytes hC cmp τ node w (fun d' h' => by rw [hw] at h'; cases h'; exact h)]
    unfold loadNodeB getBytes
    simp only [bind_assoc, pure_bind]
    rfl
  rw [e]
  show (M.bind _ _ w).1 ≠ _ ∧ (_ → M.bind _ _ w = M.bind _ _ w)
  unfold M.bind getNode
  by_cases hf : w.env.getFails w.env.gets = true
  · simp only [hf, if_true]
    simp
  · simp only [hf, if_false, Bool.false_eq_true, hw]
    exact hk { w with env := { w.env with gets := w.env.gets + 1 } }

/-- As `byteCodec`, but with a look at the second byte of a value. -/
def wordCodec : Codec UInt8 UInt8 where
  packKey k := [k]
  unpackKey p := p.head?.map fun k => (k, 1)
  packValue v := [v, 0]
  unpackValue
    | v :: 0 :: _ => some (v, 2)
    | _ => none

theorem wordCodec_inverse : wordCodec.Inverse := ⟨fun _ _ => rfl, fun _ _ => rfl⟩

theorem wordCodec_strict : wordCodec.Strict := by
  refine ⟨fun k p q h hq => ?_, fun v p q h hq => ?_⟩
  · rcases p with _ | ⟨a, p⟩
    · rfl
    · simp only [wordCodec, List.cons_append, List.cons.injEq] at h
      exact absurd (List.append_eq_nil_iff.1 h.2.symm).2 hq
  · rcases p with _ | ⟨a, _ | ⟨b, p⟩⟩
    · rfl
    · rfl
    · simp only [wordCodec, List.cons_append, List.cons.injEq] at h
      exact absurd (List.append_eq_nil_iff.1 h.2.2.symm).2 hq

def wordNode : DiskNode UInt8 UInt8 := { items := 2, root := true, max := 4, body := .leaf [(1, 2), (3, 4)] }

theorem wordNode_fits : Fits wordNode := ⟨by decide, by decide, by decide, by rintro l ⟨⟩; decide, by rintro c0 cs ⟨⟩⟩

/-- The leaf without its last byte: it is the seventh unpack call that fails (head, maximum, count, two keys and a value, then this one). -/
example : ∃ k, ∀ w : World UInt8 UInt8, (loadBytes wordCodec (fun a b => .ok ((a.toNat : Int) - b.toNat)) 0 0 ((encode wordCodec wordNode).take 31) w).1 ≠ .ok () ∧
    (w.env.unpackFails (w.env.unpacks + k) = true → loadBytes wordCodec (fun a b => .ok ((a.toNat : Int) - b.toNat)) 0 0 ((encode wordCodec wordNode).take 31) w =
      loadBytes wordCodec (fun a b => .ok ((a.toNat : Int) - b.toNat)) 0 0 (encode wordCodec wordNode) w) :=
  C61_short_bytes wordCodec_inverse wordCodec_strict _ 0 0 wordNode_fits (q := [0]) (by decide) (by simp)

example : (match (loadBytes wordCodec (fun a b => .ok ((a.toNat : Int) - b.toNat)) 0 0 ((encode wordCodec wordNode).take 31) (byteWorld.using byteEnv)) with
    | (.err .codec, w) => some w.env.unpacks | _ => none) = some 7 := by decide +kernel

/-- Without `Strict` the client's unpack callback may say that it took more bytes than there are, and then loadNode panics. -/
theorem C61_careless_codec : ∃ (C : Codec UInt8 UInt8) (d : DiskNode UInt8 UInt8) (p q : Bytes) (cmp : Compare UInt8) (w : World UInt8 UInt8),
    C.Inverse ∧ Fits d ∧ encode C d = p ++ q ∧ q ≠ [] ∧ (loadBytes C cmp 0 0 p w).1 = .fatal := by
  refine ⟨byteCodec, wordNode, (encode byteCodec wordNode).take 31, [0], fun a b => .ok ((a.toNat : Int) - b.toNat), byteWorld.using byteEnv, byteCodec_inverse, wordNode_fits,
    by decide, by simp, ?_⟩
  have : (match (loadBytes byteCodec (fun a b => .ok ((a.toNat : Int) - b.toNat)) 0 0 ((encode byteCodec wordNode).take 31) (byteWorld.using byteEnv)).1 with
    | .fatal => true | _ => false) = true := by decide +kernel
  revert this
  rcases (loadBytes byteCodec (fun a b => .ok ((a.toNat : Int) - b.toNat)) 0 0 ((encode byteCodec wordNode).take 31) (byteWorld.using byteEnv)).1 with _ | _ | _ <;> simp

end SM.Props

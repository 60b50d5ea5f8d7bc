import Verif.BTree.Codec
import Verif.Props.Reach

/-! The bytes of a node: property C37. -/

namespace SM.Props

open SM.BT

variable {K V : Type}

/-- **C37.** The bytes of a node stand for that node and no other: reading them back gives the same node - the number of items, whether it is
a root and a leaf, maxKeysPerNode, every key, value and reference to a child, in order - and uses them up. -/
theorem C37_roundtrip {C : Codec K V} (hC : C.Inverse) {d : DiskNode K V} (h : Fits d) : decode C (encode C d) = some d := by
  have := decode_encode_append hC h []
  simpa using this

/-- **C37.** Bytes followed by anything are rejected. -/
theorem C37_trailing_garbage {C : Codec K V} (hC : C.Inverse) {d : DiskNode K V} (h : Fits d) {p : Bytes} (hp : p ≠ []) :
    decode C (encode C d ++ p) = none := by
  rw [decode_encode_append hC h p, if_pos]
  simpa using hp

/-- **C37.** Different nodes have different bytes. -/
theorem C37_injective {C : Codec K V} (hC : C.Inverse) {d d' : DiskNode K V} (h : Fits d) (h' : Fits d') (he : encode C d = encode C d') : d = d' := by
  have h1 := C37_roundtrip hC h
  rw [he, C37_roundtrip hC h'] at h1
  exact (Option.some.inj h1).symm

/-- **C37.** loadNode as it works on the bytes GetNode returns does to the tree, the cache and the rest exactly what `loadNode` does, whatever
the state, whichever callbacks fail: what the other theorems say about a storage of nodes, they say about a storage of bytes. -/
theorem C37_load_bytes {C : Codec K V} (hC : C.Inverse) (cmp : Compare K) (τ : TreeId) (node : Id) (w : World K V)
    (h : ∀ d, w.disk (w.node node).ref = some d → Fits d) : loadNodeB C cmp τ node w = loadNode cmp τ node w :=
  loadNodeB_eq hC cmp τ node w h

/-- **C37.** postNode as it packs a node into bytes does exactly what `postNode` does; the length of the location is the number of bytes. -/
theorem C37_post_bytes {C : Codec K V} (hC : C.Inverse) (τ : TreeId) (node : Id) (w : World K V)
    (h : ∀ w1 b w', w1.node = w.node → postBody node w1 = (.ok b, w') → Fits (toPost τ node w b)) :
    postNodeB C τ node w = postNode (payloadSize C) τ node w ∧
    ∀ d : DiskNode K V, payloadSize C d + 10 = (encode C d).length :=
  ⟨postNodeB_eq hC τ node w h, fun d => (encode_length d).symm⟩

/-- **C37.** loadNode on the bytes of a node followed by anything does not succeed. -/
theorem C37_load_garbage {C : Codec K V} (hC : C.Inverse) (cmp : Compare K) (τ : TreeId) (node : Id) {d : DiskNode K V} (h : Fits d) {p : Bytes}
    (hp : p ≠ []) (w : World K V) : (loadBytes C cmp τ node (encode C d ++ p) w).1 ≠ .ok () := by
  rw [loadBytes_eq hC cmp τ node h, if_pos (by simpa using hp)]
  simp only [M.bind_run, M.bind]
  split <;> (try split) <;> (try split) <;> (try split) <;> (try split) <;> simp [M.throw]

/-! A codec for keys and values of one byte; a root with two children. -/

def byteCodec : Codec UInt8 UInt8 where
  packKey k := [k]
  unpackKey p := p.head?.map fun k => (k, 1)
  packValue v := [v, 0]
  unpackValue p := p.head?.map fun k => (k, 2)

theorem byteCodec_inverse : byteCodec.Inverse := ⟨fun _ _ => rfl, fun _ _ => rfl⟩

def byteNode : DiskNode UInt8 UInt8 :=
  { items := 5, root := true, max := 4, body := .inner (⟨7, 0, 30⟩, 2) [(9, (⟨8, 256, 33⟩, 3))] }

theorem sampleNode_fits : Fits byteNode := by
  refine ⟨by decide, by decide, by decide, by rintro l ⟨⟩, ?_⟩
  rintro c0 cs ⟨⟩
  decide

example : decode byteCodec (encode byteCodec byteNode) = some byteNode := C37_roundtrip byteCodec_inverse sampleNode_fits

example : encode byteCodec byteNode =
    [5, 0, 0, 0, 0, 0, 0, 0, 1, 0] ++ [4, 0, 0, 0, 0, 0, 0, 0] ++ [2, 0, 0, 0, 0, 0, 0, 0] ++
    ([7, 0, 0, 0, 0, 0, 0, 0] ++ [0, 0, 0, 0, 0, 0, 0, 0] ++ [30, 0, 0, 0, 0, 0, 0, 0] ++ [2, 0, 0, 0, 0, 0, 0, 0]) ++ [9] ++
    ([8, 0, 0, 0, 0, 0, 0, 0] ++ [0, 1, 0, 0, 0, 0, 0, 0] ++ [33, 0, 0, 0, 0, 0, 0, 0] ++ [3, 0, 0, 0, 0, 0, 0, 0]) := by decide

example : Fits ({ items := 2, root := false, max := 0, body := .leaf [(1, 2), (3, 4)] } : DiskNode UInt8 UInt8) :=
  ⟨by decide, by decide, by decide, by rintro l ⟨⟩; decide, by rintro c0 cs ⟨⟩⟩

/-- A tree with the item 3 : 7, not written yet. -/
def byteWorld : World UInt8 UInt8 :=
  ((do newBPlusTree 0 4 false; let _ ← put (fun a b : UInt8 => .ok ((a.toNat : Int) - b.toNat)) 0 9 3 7) start).2

example : (byteWorld.node 0).dirty = true ∧ (postBody 0 byteWorld).1 = .ok (.leaf [(3, 7)]) := ⟨rfl, rfl⟩

example : ∀ b w', postBody 0 byteWorld = (.ok b, w') → Fits (toPost 0 0 byteWorld b) := by
  intro b w' h
  have e : (postBody 0 byteWorld).1 = .ok (.leaf [(3, 7)]) := rfl
  rw [h] at e
  cases e
  exact ⟨by decide, by decide, by decide, by rintro l ⟨⟩; decide, by rintro c0 cs ⟨⟩⟩

def byteEnv : Env :=
  { getFails := fun _ => false, unpackFails := fun _ => false, packFails := fun _ => false, putLoc := fun _ => some (7, 0), discardFails := fun _ => false, order := fun _ => id
    gets := 0, unpacks := 0, packs := 0, puts := 0, discards := 0 }

/-- What Flush then hands to PutNode: one item, a root, a leaf; at most four keys per node; one item; its key, its value. -/
example : ((postNodeB byteCodec 0 0 (byteWorld.using byteEnv)).2.disk ⟨7, 0, 29⟩).map (encode byteCodec) =
    some ([1, 0, 0, 0, 0, 0, 0, 0, 1, 1] ++ [4, 0, 0, 0, 0, 0, 0, 0] ++ [1, 0, 0, 0, 0, 0, 0, 0] ++ [3] ++ [7, 0]) := by decide +kernel

end SM.Props

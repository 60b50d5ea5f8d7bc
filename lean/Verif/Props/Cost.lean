import Verif.Props.Shape
import Verif.BTree.Cost

/-!
How many nodes an operation on a B+Tree reads (C53).
-/

namespace SM.Props

open BT Spec

section
variable {K V : Type} {S : Setup K V} {fuel : Nat} {cs : Calls K V} {t : TreeId} {v : Env} {l : List (K × V)} {d : Nat}

/-- The most nodes an operation may read of a map with `n` levels of nodes: one on each level; a deletion also the two neighbours of each node on
the way but the root; Len only the root. -/
def mostReads (n : Nat) : Op K V → Nat
  | .deleteByKey _ | .deleteByIndex _ => n + 2 * (n - 1)
  | .len => 1
  | _ => n

/-- C53: on a map with `d + 1` levels of nodes no SortedMap method but Validate calls GetNode more than `d + 1` times, deletions `3 d + 1` times, Len
once, whatever the callbacks answer. -/
theorem C53_reads (h : Opened S fuel cs t) (hd : Balanced (S.now fuel cs) t (S.cfg t).max d) {op : Op K V} (hop : op ≠ .validate) (v : Env) :
    (S.run fuel (S.now fuel cs) (.op t op) v).2.env.gets ≤ v.gets + mostReads (d + 1) op := by
  have hfu := h.enough t
  rw [List.length_append, List.length_singleton] at hfu
  obtain ⟨s, L, LK, e, m, h1, h2, hS, he, hP, hm, hrep⟩ := Opened.scene h
  have hb := hS.scene.balanced he
  rw [hP, S.named] at hb
  have hH := hS.high e he
  cases hd.unique hb
  obtain ⟨L1, L2, rfl⟩ := List.append_of_mem he
  have hc := Rest.cost (hS.using v).scene.focus (fuel := fuel) (by rw [hP]; omega) hop
  rw [hP, S.named] at hc
  show (reply _ _ _).2.env.gets ≤ _
  rw [reply_world]
  refine Nat.le_trans hc (Nat.add_le_add_left ?_ _)
  cases op <;> simp only [opCost, mostReads] <;> omega

/-- C53: so with TouchItem. -/
theorem C53_touch_item_reads (h : Opened S fuel cs t) (hd : Balanced (S.now fuel cs) t (S.cfg t).max d) (k : Nat) (v : Env) :
    (S.run fuel (S.now fuel cs) (.touchItem t k) v).2.env.gets ≤ v.gets + (d + 1) := by
  have hfu := h.enough t
  rw [List.length_append, List.length_singleton] at hfu
  obtain ⟨s, L, LK, e, m, h1, h2, hS, he, hP, hm, hrep⟩ := Opened.scene h
  have hb := hS.scene.balanced he
  rw [hP, S.named] at hb
  have hH := hS.high e he
  cases hd.unique hb
  obtain ⟨L1, L2, rfl⟩ := List.append_of_mem he
  have hc := Rest.touchItemCost (hS.using v).scene.focus (fuel := fuel) (by rw [hP]; omega) k
  rw [hP, S.named] at hc
  show (reply _ _ _).2.env.gets ≤ _
  rw [reply_world]
  exact hc

/-- C53: so with FetchDimensionsReport. -/
theorem C53_dimensions_reads (h : Opened S fuel cs t) (hd : Balanced (S.now fuel cs) t (S.cfg t).max d) (v : Env) :
    (S.run fuel (S.now fuel cs) (.dimensions t) v).2.env.gets ≤ v.gets + (d + 1) := by
  have hfu := h.enough t
  rw [List.length_append, List.length_singleton] at hfu
  obtain ⟨s, L, LK, e, m, h1, h2, hS, he, hP, hm, hrep⟩ := Opened.scene h
  have hb := hS.scene.balanced he
  rw [hP, S.named] at hb
  have hH := hS.high e he
  cases hd.unique hb
  obtain ⟨L1, L2, rfl⟩ := List.append_of_mem he
  have hc := Rest.dimensionsCost (hS.using v).scene.focus (fuel := fuel) (by omega)
  rw [hP, S.named] at hc
  show (reply _ _ _).2.env.gets ≤ _
  rw [reply_world]
  exact hc

/-- C53: the number of levels is logarithmic in the number of items: with a second level there are at least twice half the maximum number of keys, and
each further level multiplies this by half the maximum number of keys plus one. -/
theorem C53_levels (h : Opened S fuel cs t) (hd : Balanced (S.now fuel cs) t (S.cfg t).max (d + 1)) (hl : S.Has fuel (S.now fuel cs) t l) :
    2 * (((S.cfg t).max / 2 + 1) ^ d * ((S.cfg t).max / 2)) ≤ l.length := by
  obtain ⟨s, L, LK, e, m, h1, h2, hS, he, hP, hm, hrep⟩ := Opened.scene h
  have hb := hS.scene.balanced he
  rw [hP, S.named] at hb
  have hle := hl.unique (h1.has (fun t => by have := h.enough t; simp at this; omega) h2 hm)
  have hu := hd.unique hb
  rw [hle, hrep.items, ← show e.P.max = (S.cfg t).max by rw [hP]]
  obtain ⟨L1, L2, rfl⟩ := List.append_of_mem he
  have ho := hS.scene.focus.occ
  obtain ⟨P, H, g⟩ := e
  simp only at hu ho ⊢
  subst hu
  exact ho.many

/-- The number of levels FetchDimensionsReport reports. -/
def levels : Out (Api.Reply K V) → Nat
  | .ok (.dimensions x) => x.height
  | _ => 0

/-- After `storeHist` map 0 has two levels below its root. -/
theorem storeHist_deep : Balanced (sampleSetup.now 60 storeHist) 0 (sampleSetup.cfg 0).max 2 := by
  obtain ⟨d, hd⟩ := (C17_balanced storeHist_open).1
  obtain ⟨-, s, s', m, h1, h2, h3, h4, -⟩ := storeHist_open.call rfl
  have h5 := congrArg levels (C44_dimensions storeHist_open calmEnv_works.1 h4 hd)
  have h6 : levels (sampleSetup.run 60 (sampleSetup.now 60 storeHist) (.dimensions 0) calmEnv).1 = 3 := by decide +kernel
  rw [h6] at h5
  have : 3 = d + 1 := h5
  obtain rfl : d = 2 := by omega
  exact hd

example (v : Env) : (sampleSetup.run 60 (sampleSetup.now 60 storeHist) (.op 0 (.getByKey 50)) v).2.env.gets ≤ v.gets + 3 :=
  C53_reads (op := .getByKey 50) storeHist_open storeHist_deep (by simp) v
example (v : Env) : (sampleSetup.run 60 (sampleSetup.now 60 storeHist) (.op 0 (.deleteByIndex 4)) v).2.env.gets ≤ v.gets + 7 :=
  C53_reads (op := .deleteByIndex 4) storeHist_open storeHist_deep (by simp) v
example := C53_touch_item_reads storeHist_open storeHist_deep 3
example := C53_dimensions_reads storeHist_open storeHist_deep
example : ∃ l, sampleSetup.Has 60 (sampleSetup.now 60 storeHist) 0 l ∧ 12 ≤ l.length := by
  obtain ⟨-, s, s', m, h1, h2, h3, h4, -⟩ := storeHist_open.call rfl
  exact ⟨_, h4, C53_levels storeHist_open storeHist_deep h4⟩

end

end SM.Props

import Verif.Props.Store
import Verif.Props.Cost
import Verif.Props.Release
import Verif.BTree.Scan

/-!
How many nodes the calls that go through the whole map read (C53).
-/

namespace SM.Props

open BT Spec

section
variable {K V : Type} {S : Setup K V} {fuel : Nat} {cs : Calls K V} {t : TreeId}

/-- C53: Touch, Discard, Validate, FetchLayoutReport and Dump call GetNode at most once for each stored node of the map, whether callbacks fail or not: at most as often as there are locations that Discard
would discard and Prune would not. If the map is stored, these are what one gets to from its location. Nodes that are in memory without changes, each of them stored, are
not read: the reads and those nodes are together no more than the stored ones. -/
theorem C53_whole_reads (h : Opened S fuel cs t) (v : Env) :
    ∃ stored : List Ref, stored.Nodup ∧ (∀ x ∈ stored, (S.now fuel cs).disk x ≠ none) ∧
      (∀ r l, Stored S fuel cs t r l → ∀ x, x ∈ stored ↔ Leads (S.now fuel cs).disk r x) ∧
      (S.Clear fuel cs t → ∀ v' : Env, v'.Works → ∀ x ∈ stored,
        x ∈ (S.see fuel (S.now fuel cs) (.discard t) v').gone ∧ x ∉ (S.see fuel (S.now fuel cs) (.prune t) v').gone) ∧
      ∀ ids : List Id, ids.Nodup → (∀ i ∈ ids, InMemory (S.now fuel cs) t i false) →
        ∀ c, c = .touch t ∨ c = .discard t ∨ c = .op t .validate ∨ c = .layout t ∨ (∃ cb, c = .dump t cb) →
          (S.run fuel (S.now fuel cs) c v).2.env.gets + ids.length ≤ v.gets + stored.length := by
  have hfu := h.enough t
  rw [List.length_append, List.length_singleton] at hfu
  obtain ⟨h0, -⟩ := Hist.call h rfl
  obtain ⟨s, L, LK, e, m, h1, h2, hS, he, hP, hm, hrep⟩ := Opened.scene h
  have hH := hS.high e he
  obtain ⟨L1, L2, rfl⟩ := List.append_of_mem he
  have hc := Rest.touchAway (hS.using v).scene.focus (fuel := fuel) (by omega)
  have hd := Rest.discardAway (hS.using v).scene.focus (fuel := fuel) (by omega)
  have hva := Rest.validateAway (hS.using v).scene.focus (fuel := fuel) (by omega)
  have hla := Rest.layoutAway (hS.using v).scene.focus (fuel := fuel) (by omega)
  have hdu := fun cb => Rest.dumpAway (cb := cb) (hS.using v).scene.focus (fuel := fuel) (by omega)
  rw [hP, S.named] at hc hd hva hla hdu
  have hmem : ∀ x, x ∈ m.live.toList ↔ x ∈ m.live := fun x => Multiset.mem_toList
  refine ⟨m.live.toList, ?_, fun x hx => ?_, fun r l hst x => ?_, fun hT v' hv' x hx => ?_, fun ids hn hids => ?_⟩
  · rw [← Multiset.coe_nodup, Multiset.coe_toList]
    exact Multiset.nodup_of_le (Multiset.le_add_right _ _) (h1.inv.apart t m hm).1
  · rw [hmem, hrep.live, Multiset.mem_map] at hx
    obtain ⟨p, hp, rfl⟩ := hx
    have := (hS.scene.focus.I.disk p (Multiset.mem_add.2 (.inr (Multiset.mem_add.2 (.inl hp))))).1
    rw [this]; simp
  · rw [hmem]
    exact h1.inv.leads (h1.sane.saved t m r hm (h1.saved h0.enough h2 hm hst.loc hst.ne)) x
  · rw [hmem] at hx
    obtain ⟨k1, k2⟩ := h1.frees h0.enough h2 hm (h1.clear hT hm) hv'
    constructor
    · rw [← Multiset.mem_coe, k2]; exact Multiset.mem_add.2 (.inl hx)
    · rw [← Multiset.mem_coe, k1]; exact Multiset.disjoint_left.1 (h1.sane.live_old hm) hx
  · have hle : ids.length ≤ Multiset.card (e.g.mem.filter fun p => p.2 = false) := by
      rw [← List.length_map (f := fun i => (i, false)), ← Multiset.coe_card]
      refine Multiset.card_le_card ((Multiset.le_iff_subset ?_).2 fun p hp => ?_)
      · exact Multiset.coe_nodup.2 (hn.map fun a b h => (Prod.mk.inj h).1)
      · obtain ⟨i, hi, rfl⟩ := List.mem_map.1 (Multiset.mem_coe.1 hp)
        have := hids i hi
        rw [← S.named t, ← hP] at this
        exact Multiset.mem_filter.2 ⟨(hS.scene.mem (by simp)).2 this, rfl⟩
    rw [Multiset.length_toList, hrep.live, Multiset.card_map, Ent.pages, hP]
    rintro c (rfl | rfl | rfl | rfl | ⟨cb, rfl⟩) <;> show (reply _ _ _).2.env.gets + _ ≤ _ <;> rw [reply_world]
    · exact (Nat.add_le_add_left hle _).trans hc
    · exact (Nat.add_le_add_left hle _).trans hd
    · exact (Nat.add_le_add_left hle _).trans hva
    · exact (Nat.add_le_add_left hle _).trans hla
    · exact (Nat.add_le_add_left hle _).trans (hdu cb)

end

/-! A map of 11 nodes, all stored, of which 3 are in memory: Touch, Discard and Validate read the other 8. -/

example := C53_whole_reads storeHist_open calmEnv
/-- The three nodes: the root, its first child and a leaf. -/
example : ∀ i ∈ [(0, 8), (0, 25), (0, 28)], InMemory (sampleSetup.now 60 storeHist) 0 i false := by
  have h1 : Holds (sampleSetup.now 60 storeHist) 0 (0, 8) := .root (by decide +kernel)
  have h2 : Holds (sampleSetup.now 60 storeHist) 0 (0, 25) := .left h1 (by decide +kernel) (by decide +kernel) (by decide +kernel)
  obtain ⟨T, e1, e2⟩ : ∃ T, ((sampleSetup.now 60 storeHist).node (0, 25)).kv = some T ∧ (40, Val.node (0, 28)) ∈ T.toList := by
    have h : (((sampleSetup.now 60 storeHist).node (0, 25)).kv.any fun T => T.toList.any fun p =>
        p.1 == 40 && match p.2 with | .node c => c == (0, 28) | _ => false) = true := by decide +kernel
    cases e : ((sampleSetup.now 60 storeHist).node (0, 25)).kv with
    | none => rw [e] at h; cases h
    | some T =>
      rw [e, Option.any_some, List.any_eq_true] at h
      obtain ⟨⟨k, x⟩, h1, h2⟩ := h
      cases x with
      | node c =>
        simp only [Bool.and_eq_true, beq_iff_eq] at h2
        obtain ⟨rfl, rfl⟩ := h2
        exact ⟨T, rfl, h1⟩
      | _ => simp at h2
  have h3 : Holds (sampleSetup.now 60 storeHist) 0 (0, 28) := .kid h2 (by decide +kernel) (by decide +kernel) e1 e2
  simp only [List.mem_cons, List.not_mem_nil, or_false, forall_eq_or_imp, forall_eq]
  exact ⟨⟨h1, by decide +kernel⟩, ⟨h2, by decide +kernel⟩, h3, by decide +kernel⟩
example : ∃ r l, Stored sampleSetup 60 storeHist 0 r l := storeHist_stored
example : (sampleSetup.run 60 (sampleSetup.now 60 storeHist) (.touch 0) calmEnv).2.env.gets = 8 ∧
    (sampleSetup.run 60 (sampleSetup.now 60 storeHist) (.discard 0) calmEnv).2.env.gets = 8 ∧
    (sampleSetup.run 60 (sampleSetup.now 60 storeHist) (.op 0 .validate) calmEnv).2.env.gets = 8 ∧
    (sampleSetup.run 60 (sampleSetup.now 60 (storeHist ++ [(.purge 0 true, calmEnv)])) (.touch 0) calmEnv).2.env.gets = 11 := by decide +kernel

end SM.Props

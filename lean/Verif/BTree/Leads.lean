import Verif.BTree.Report

/-! What is stored, seen as a graph of locations. -/

namespace SM.BT

variable {K V : Type}

/-- The locations a stored node refers to. -/
def DiskBody.refs : DiskBody K V → List Ref
  | .leaf _ | .none => []
  | .inner c0 cs => c0.1 :: cs.map fun p => p.2.1

/-- From location `r` one gets to location `x`, following the references in stored nodes. Both are in use. -/
inductive Leads (disk : Ref → Option (DiskNode K V)) : Ref → Ref → Prop
  | here {r n} : disk r = some n → Leads disk r r
  | down {r n x y} : disk r = some n → x ∈ n.body.refs → Leads disk x y → Leads disk r y

section
variable {P : Par K}

theorem Row.disk_refs {h : Nat} (r : Row K (Dt K V h)) : ((Row.disk (r.map Dt.kid) : DiskBody K V)).refs = r.kids.map Dt.ref := by
  simp [Row.disk, DiskBody.refs, Row.kids, Kid.disk, Dt.kid, refOf]

/-- The locations of a stored tree are those its root leads to. -/
theorem Dt.leads {disk : Ref → Option (DiskNode K V)} : ∀ {h : Nat} (root : Bool) (d : Dt K V h), (∀ p ∈ d.pages P root, disk p.1 = some p.2) →
    ∀ x, x ∈ (d.pages P root).map Prod.fst ↔ Leads disk d.ref x
  | 0, root, d, hd, x => by
      obtain ⟨ref, l, rfl⟩ := d.cases0
      rw [pages_leaf] at hd ⊢
      have h0 := hd _ (Multiset.mem_singleton_self _)
      simp only [Multiset.map_singleton, Multiset.mem_singleton, ref_dleaf]
      constructor
      · rintro rfl; exact .here h0
      · rintro (h | ⟨h, hx, -⟩)
        · rfl
        · rw [h0, Option.some.injEq] at h
          subst h
          cases hx
  | h + 1, root, d, hd, x => by
      obtain ⟨ref, l, rfl⟩ := d.casesS
      rw [pages_inner] at hd ⊢
      have h0 := hd _ (Multiset.mem_cons_self _ _)
      have ih : ∀ k ∈ l.kids, ∀ x, x ∈ (k.pages P false).map Prod.fst ↔ Leads disk k.ref x := fun k hk =>
        Dt.leads false k fun p hp => hd p (Multiset.mem_cons_of_mem (mem_listSum.2 ⟨k, hk, hp⟩))
      have key : x ∈ Multiset.map Prod.fst (l.kids.map (Dt.pages P false)).sum ↔ ∃ k ∈ l.kids, x ∈ (k.pages P false).map Prod.fst := by
        simp only [Multiset.mem_map, mem_listSum]
        constructor
        · rintro ⟨p, ⟨k, hk, hp⟩, rfl⟩; exact ⟨k, hk, p, hp, rfl⟩
        · rintro ⟨k, hk, p, hp, rfl⟩; exact ⟨p, ⟨k, hk, hp⟩, rfl⟩
      rw [Multiset.map_cons, Multiset.mem_cons, key, ref_dinner]
      constructor
      · rintro (rfl | ⟨k, hk, hx⟩)
        · exact .here h0
        · exact .down h0 (by show _ ∈ (Row.disk _).refs; rw [Row.disk_refs]; exact List.mem_map_of_mem hk) ((ih k hk x).1 hx)
      · rintro (h | ⟨h, hx, hl⟩)
        · exact .inl rfl
        · rw [h0, Option.some.injEq] at h
          subst h
          replace hx : _ ∈ (Row.disk _).refs := hx
          rw [Row.disk_refs] at hx
          obtain ⟨k, hk, rfl⟩ := List.mem_map.1 hx
          exact .inr ⟨k, hk, (ih k hk x).2 hl⟩

end

end SM.BT

import Verif.LLRB.Depth

/-! Number of comparisons of a deletion and of PatchByKey. -/

namespace SM.LLRB.Tree

open Spec

variable {K V : Type} {cmp : Compare K} {Valid : K → Prop}

theorem patchByKey_probes {cmp' : Compare K} {key : K} {value : V} {t : Tree K V}
    (h : ∀ k ∈ probes cmp key t, cmp' key k = cmp key k) :
    patchByKey cmp' key value t = patchByKey cmp key value t := by
  induction t with
  | nil => rfl
  | node k v l r c n ihl ihr =>
    simp only [probes, List.mem_cons, forall_eq_or_imp] at h
    simp only [patchByKey, h.1]
    split
    · rfl
    · rename_i res hres
      simp only [hres] at h
      split
      · rename_i hr; simp only [hr, if_true] at h; rw [ihl h.2]
      · rename_i hr
        split
        · rename_i hr'; simp only [hr, hr', if_true, if_false] at h; rw [ihr h.2]
        · rfl

theorem preDeleteByKeyAdjustLen_probes {cmp' : Compare K} {key : K} {t : Tree K V}
    (h : ∀ k ∈ probes cmp key t, cmp' key k = cmp key k) :
    preDeleteByKeyAdjustLen cmp' key t = preDeleteByKeyAdjustLen cmp key t := by
  induction t with
  | nil => rfl
  | node k v l r c n ihl ihr =>
    simp only [probes, List.mem_cons, forall_eq_or_imp] at h
    simp only [preDeleteByKeyAdjustLen, h.1]
    split
    · rfl
    · rename_i res hres
      simp only [hres] at h
      split
      · rename_i hr; simp only [hr, if_true] at h; rw [ihl h.2]
      · rename_i hr
        split
        · rename_i hr'; simp only [hr, hr', if_true, if_false] at h; rw [ihr h.2]
        · rfl

/-! ### More fuel does not change a result -/

theorem deleteMin_more : ∀ {fuel : Nat} {t : Tree K V} {x}, deleteMin fuel t = some x →
    deleteMin (fuel + 1) t = some x := by
  intro fuel
  induction fuel with
  | zero => intro t x h; simp [deleteMin] at h
  | succ f ih =>
    intro t x h
    cases t with
    | nil => simp [deleteMin] at h
    | node k v l r c n =>
      cases l with
      | nil => simpa [deleteMin] using h
      | node lk lv ll lr lc ln =>
        rw [deleteMin] at h ⊢
        · cases hp : prepLeft (node k v (node lk lv ll lr lc ln) r c n) with
          | none => rw [hp] at h; simp at h
          | some t1 =>
            rw [hp] at h
            cases t1 with
            | nil => simp at h
            | node k1 v1 l1 r1 c1 n1 =>
              simp only [Option.bind_eq_bind, Option.bind_some] at h ⊢
              cases hd : deleteMin f l1 with
              | none => rw [hd] at h; simp at h
              | some y => rw [ih hd]; rw [hd] at h; exact h
        all_goals simp

theorem delete_more {key : K} : ∀ {fuel : Nat} {t : Tree K V} {x},
    delete cmp key fuel t = some x → delete cmp key (fuel + 1) t = some x := by
  intro fuel
  induction fuel with
  | zero => intro t x h; simp [delete] at h
  | succ f ih =>
    intro t x h
    rw [delete] at h ⊢
    cases hc : cmpRoot? cmp key t with
    | none => rw [hc] at h; simp at h
    | some y =>
      rw [hc] at h
      cases y with
      | error e => exact h
      | ok res =>
        simp only [Option.bind_eq_bind, Option.bind_some] at h ⊢
        split at h <;> rename_i hlt
        · rw [if_pos hlt]
          cases hp : prepLeft t with
          | none => rw [hp] at h; simp at h
          | some t1 =>
            rw [hp] at h
            cases t1 with
            | nil => simp at h
            | node k1 v1 l1 r1 c1 n1 =>
              simp only [Option.bind_some] at h ⊢
              cases hd : delete cmp key f l1 with
              | none => rw [hd] at h; simp at h
              | some y => rw [ih hd]; rw [hd] at h; exact h
        · rw [if_neg hlt]
          cases hp : deleteStep1 cmp key res t with
          | none => rw [hp] at h; simp at h
          | some y =>
            rw [hp] at h
            obtain ⟨t1, y⟩ := y
            cases y with
            | error e => exact h
            | ok res1 =>
              simp only [Option.bind_some] at h ⊢
              cases hr : t1.right? with
              | none => rw [hr] at h; simp at h
              | some r1 =>
                rw [hr] at h
                simp only [Option.bind_some] at h ⊢
                split at h <;> rename_i hz
                · rw [if_pos hz]; exact h
                · rw [if_neg hz]
                  cases hq : deleteStep2 cmp key res1 t1 with
                  | none => rw [hq] at h; simp at h
                  | some y =>
                    rw [hq] at h
                    obtain ⟨t2, y⟩ := y
                    cases y with
                    | error e => exact h
                    | ok res2 =>
                      cases t2 with
                      | nil => simp at h
                      | node k2 v2 l2 r2 c2 n2 =>
                        simp only [Option.bind_some] at h ⊢
                        split at h <;> rename_i hz2
                        · rw [if_pos hz2]
                          cases hd : deleteMin f r2 with
                          | none => rw [hd] at h; simp at h
                          | some y => rw [deleteMin_more hd]; rw [hd] at h; exact h
                        · rw [if_neg hz2]
                          cases hd : delete cmp key f r2 with
                          | none => rw [hd] at h; simp at h
                          | some y => rw [ih hd]; rw [hd] at h; exact h

theorem delete_mono {key : K} {f g : Nat} (hfg : f ≤ g) {t : Tree K V} {x}
    (h : delete cmp key f t = some x) : delete cmp key g t = some x := by
  induction hfg with
  | refl => exact h
  | step _ ih => exact delete_more ih

/-! ### Each call compares at most three times -/

theorem cmpRoot?_asks (key : K) (t : Tree K V) : ∃ ks : List K, ks.length ≤ 1 ∧
    ∀ cmp' : Compare K, (∀ k ∈ ks, cmp' key k = cmp key k) →
      cmpRoot? cmp' key t = cmpRoot? cmp key t := by
  cases t with
  | nil => exact ⟨[], by simp, fun _ _ => rfl⟩
  | node k v l r c n => exact ⟨[k], by simp, fun cmp' h => by simp [cmpRoot?, h k (by simp)]⟩

theorem deleteStep1_asks (key : K) (res : Int) (t : Tree K V) : ∃ ks : List K, ks.length ≤ 1 ∧
    ∀ cmp' : Compare K, (∀ k ∈ ks, cmp' key k = cmp key k) →
      deleteStep1 cmp' key res t = deleteStep1 cmp key res t := by
  unfold deleteStep1
  cases t.left? with
  | none => exact ⟨[], by simp, fun _ _ => rfl⟩
  | some l =>
    cases rotateRight t with
    | none => exact ⟨[], by simp, fun _ _ => rfl⟩
    | some t1 =>
      obtain ⟨ks, h1, h2⟩ := cmpRoot?_asks (cmp := cmp) key t1
      exact ⟨ks, h1, fun cmp' h => by simp [h2 cmp' h]⟩

theorem deleteStep2_asks (key : K) (res : Int) (t : Tree K V) : ∃ ks : List K, ks.length ≤ 1 ∧
    ∀ cmp' : Compare K, (∀ k ∈ ks, cmp' key k = cmp key k) →
      deleteStep2 cmp' key res t = deleteStep2 cmp key res t := by
  unfold deleteStep2
  cases t.right? with
  | none => exact ⟨[], by simp, fun _ _ => rfl⟩
  | some l =>
    cases moveRedRight t with
    | none => exact ⟨[], by simp, fun _ _ => rfl⟩
    | some t1 =>
      obtain ⟨ks, h1, h2⟩ := cmpRoot?_asks (cmp := cmp) key t1
      exact ⟨ks, h1, fun cmp' h => by simp [h2 cmp' h]⟩

theorem delete_asks (key : K) : ∀ (fuel : Nat) (t : Tree K V), ∃ ks : List K,
    ks.length ≤ 3 * fuel ∧ ∀ cmp' : Compare K, (∀ k ∈ ks, cmp' key k = cmp key k) →
      delete cmp' key fuel t = delete cmp key fuel t := by
  intro fuel
  induction fuel with
  | zero => intro t; exact ⟨[], by simp, fun _ _ => rfl⟩
  | succ f ih =>
    intro t
    obtain ⟨k1, a1, b1⟩ := cmpRoot?_asks (cmp := cmp) key t
    simp only [delete]
    cases hc : cmpRoot? cmp key t with
    | none => exact ⟨k1, by omega, fun cmp' h => by rw [b1 cmp' h, hc]; rfl⟩
    | some y =>
      cases y with
      | error e => exact ⟨k1, by omega, fun cmp' h => by rw [b1 cmp' h, hc]; rfl⟩
      | ok res =>
        rw [hc] at b1
        by_cases hlt : res < 0
        · cases hp : prepLeft t with
          | none => exact ⟨k1, by omega, fun cmp' h => by rw [b1 cmp' h]; simp [hlt]⟩
          | some t1 =>
            cases t1 with
            | nil => exact ⟨k1, by omega, fun cmp' h => by rw [b1 cmp' h]; simp [hlt]⟩
            | node k v l r c n =>
              obtain ⟨k2, a2, b2⟩ := ih l
              refine ⟨k1 ++ k2, by simp; omega, fun cmp' h => ?_⟩
              rw [b1 cmp' (fun k hk => h k (List.mem_append_left _ hk))]
              simp [hlt, b2 cmp' (fun k hk => h k (List.mem_append_right _ hk))]
        · obtain ⟨k2, a2, b2⟩ := deleteStep1_asks (cmp := cmp) key res t
          cases hp : deleteStep1 cmp key res t with
          | none =>
            refine ⟨k1 ++ k2, by simp; omega, fun cmp' h => ?_⟩
            rw [b1 cmp' (fun k hk => h k (List.mem_append_left _ hk))]
            simp [hlt, b2 cmp' (fun k hk => h k (List.mem_append_right _ hk)), hp]
          | some y =>
            obtain ⟨t1, y⟩ := y
            rw [hp] at b2
            cases y with
            | error e =>
              refine ⟨k1 ++ k2, by simp; omega, fun cmp' h => ?_⟩
              rw [b1 cmp' (fun k hk => h k (List.mem_append_left _ hk))]
              simp [hlt, b2 cmp' (fun k hk => h k (List.mem_append_right _ hk)), hp]
            | ok res1 =>
              obtain ⟨k3, a3, b3⟩ := deleteStep2_asks (cmp := cmp) key res1 t1
              cases hq : deleteStep2 cmp key res1 t1 with
              | none =>
                refine ⟨k1 ++ (k2 ++ k3), by simp; omega, fun cmp' h => ?_⟩
                simp only [List.mem_append] at h
                rw [b1 cmp' (fun k hk => h k (.inl hk))]
                simp [hlt, b2 cmp' (fun k hk => h k (.inr (.inl hk))),
                  b3 cmp' (fun k hk => h k (.inr (.inr hk))), hp, hq]
              | some y =>
                obtain ⟨t2, y⟩ := y
                rw [hq] at b3
                cases t2 with
                | nil =>
                  refine ⟨k1 ++ (k2 ++ k3), by simp; omega, fun cmp' h => ?_⟩
                  simp only [List.mem_append] at h
                  rw [b1 cmp' (fun k hk => h k (.inl hk))]
                  cases y <;> simp [hlt, b2 cmp' (fun k hk => h k (.inr (.inl hk))),
                    b3 cmp' (fun k hk => h k (.inr (.inr hk))), hp, hq]
                | node k v l r c n =>
                  obtain ⟨k4, a4, b4⟩ := ih r
                  refine ⟨k1 ++ (k2 ++ (k3 ++ k4)), by simp; omega, fun cmp' h => ?_⟩
                  simp only [List.mem_append] at h
                  rw [b1 cmp' (fun k hk => h k (.inl hk))]
                  cases y <;> simp [hlt, b2 cmp' (fun k hk => h k (.inr (.inl hk))),
                    b3 cmp' (fun k hk => h k (.inr (.inr (.inl hk)))),
                    b4 cmp' (fun k hk => h k (.inr (.inr (.inr hk)))), hp, hq]

/-- A deletion in a tree of black height `n`: at most `6 * n` comparisons. -/
theorem delete_root_asks (H : Lawful cmp Valid) {key : K} (hk : Valid key) {t : Tree K V} {n : Nat}
    (hv : AllValid Valid t.toList) (hs : Sorted cmp t.toList) (hh : has cmp key t.toList = true)
    (hlen : LenOK (wt cmp key) t) (hb : Bal t n) (hbl : t.isRed = false) :
    ∃ ks : List K, ks.length ≤ 6 * n ∧ ∀ cmp' : Compare K, (∀ k ∈ ks, cmp' key k = cmp key k) →
      delete cmp' key t.size t = delete cmp key t.size t := by
  obtain ⟨f, f1, f2, f3⟩ : ∃ f, f ≤ 2 * n ∧ f ≤ t.size ∧ 2 * n ≤ f + if t.LR then 0 else 1 := by
    have := hb.calls_le hbl
    refine ⟨2 * n - if t.LR then 0 else 1, ?_, ?_, ?_⟩ <;> split at this <;> simp_all <;> omega
  obtain ⟨t', e, -⟩ := delete_root_calls H hk hv hs hh hlen hb hbl f3
  obtain ⟨ks, h1, h2⟩ := delete_asks (cmp := cmp) key f t
  refine ⟨ks, by omega, fun cmp' h => ?_⟩
  rw [delete_mono f2 e, delete_mono f2 ((h2 cmp' h).trans e)]

end SM.LLRB.Tree

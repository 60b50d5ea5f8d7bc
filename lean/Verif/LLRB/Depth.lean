import Verif.LLRB.History

/-! Depth of the LLRB tree and number of comparisons. -/

namespace SM.LLRB.Tree

open Spec

variable {K V : Type} {cmp : Compare K} {Valid : K → Prop}

/-- Number of nodes on the longest path down from the root. -/
def depth : Tree K V → Nat
  | nil => 0
  | node _ _ l r _ _ => max l.depth r.depth + 1

theorem Bal.depth_le {t : Tree K V} : ∀ {n : Nat}, Bal t n →
    t.depth ≤ 2 * n + (if t.isRed then 1 else 0) := by
  induction t with
  | nil => intro n _; simp [depth]
  | node k v l r c len ihl ihr =>
    intro n h
    cases c with
    | true =>
      simp only [Bal] at h
      have h1 := ihl h.1
      have h2 := ihr h.2.1
      rw [h.2.2.1] at h1
      rw [h.2.2.2] at h2
      simp [depth] at *; omega
    | false =>
      cases n with
      | zero => simp [Bal] at h
      | succ n =>
        simp only [Bal] at h
        have h1 := ihl h.1
        have h2 := ihr h.2.1
        rw [h.2.2] at h2
        simp only [depth, isRed_node]
        split at h1 <;> simp at * <;> omega

theorem OK.depth_le {t : Tree K V} (h : OK cmp Valid t) :
    t.depth ≤ 2 * Nat.log2 (t.toList.length + 1) := by
  obtain ⟨n, hb⟩ := h.bal
  have h1 := hb.depth_le
  have h2 := hb.size_ge
  rw [h.black] at h1
  have : n ≤ Nat.log2 (t.toList.length + 1) := (Nat.le_log2 (by omega)).2 h2
  simp at h1; omega

/-- The stored keys a look-up of `key` is compared with, in order. -/
def probes (cmp : Compare K) (key : K) : Tree K V → List K
  | nil => []
  | node k _ l r _ _ =>
      k :: match cmp key k with
        | .error _ => []
        | .ok res => if res < 0 then probes cmp key l else if res > 0 then probes cmp key r else []

theorem probes_length (key : K) (t : Tree K V) : (probes cmp key t).length ≤ t.depth := by
  induction t with
  | nil => simp [probes]
  | node k v l r c n ihl ihr =>
    simp only [probes, List.length_cons, depth]
    split
    · simp
    · split
      · omega
      · split
        · omega
        · simp

theorem getByKey_probes {cmp' : Compare K} {key : K} {t : Tree K V}
    (h : ∀ k ∈ probes cmp key t, cmp' key k = cmp key k) :
    getByKey cmp' key t = getByKey cmp key t := by
  induction t with
  | nil => rfl
  | node k v l r c n ihl ihr =>
    simp only [probes, List.mem_cons, forall_eq_or_imp] at h
    simp only [getByKey, h.1]
    split
    · rfl
    · rename_i res hres
      simp only [hres] at h
      split
      · rename_i hr; simp only [hr, if_true] at h; exact ihl h.2
      · rename_i hr
        split
        · rename_i hr'; simp only [hr, hr', if_true, if_false] at h; exact ihr h.2
        · rfl

theorem insert_probes {cmp' : Compare K} {key : K} {value : V} {t : Tree K V}
    (h : ∀ k ∈ probes cmp key t, cmp' key k = cmp key k) :
    insert cmp' key value t = insert cmp key value t := by
  induction t with
  | nil => rfl
  | node k v l r c n ihl ihr =>
    simp only [probes, List.mem_cons, forall_eq_or_imp] at h
    simp only [insert, h.1]
    split
    · rfl
    · rename_i res hres
      simp only [hres] at h
      split
      · rename_i hr; simp only [hr, if_true] at h; rw [ihl h.2]
      · rename_i hr
        split
        · rename_i hr'; simp only [hr, hr', if_true, if_false] at h; rw [ihr h.2]
        · rfl

theorem postInsertAdjustLen_probes {cmp' : Compare K} {key : K} {t : Tree K V}
    (h : ∀ k ∈ probes cmp key t, cmp' key k = cmp key k) :
    postInsertAdjustLen cmp' key t = postInsertAdjustLen cmp key t := by
  induction t with
  | nil => rfl
  | node k v l r c n ihl ihr =>
    simp only [probes, List.mem_cons, forall_eq_or_imp] at h
    simp only [postInsertAdjustLen, h.1]
    split
    · rfl
    · rename_i res hres
      simp only [hres] at h
      split
      · rename_i hr; simp only [hr, if_true] at h; rw [ihl h.2]
      · rename_i hr
        split
        · rename_i hr'; simp only [hr, hr', if_true, if_false] at h; rw [ihr h.2]
        · rfl

theorem bisectLeftLoop_probes {cmp' : Compare K} {key : K} {t : Tree K V}
    (h : ∀ k ∈ probes cmp key t, cmp' key k = cmp key k) (i : Int) :
    bisectLeftLoop cmp' key t i = bisectLeftLoop cmp key t i := by
  induction t generalizing i with
  | nil => rfl
  | node k v l r c n ihl ihr =>
    simp only [probes, List.mem_cons, forall_eq_or_imp] at h
    unfold bisectLeftLoop
    simp only [h.1]
    split
    · rfl
    · rename_i res hres
      simp only [hres] at h
      split
      · rfl
      · rename_i hz
        split
        · rename_i hr
          simp only [hr, if_true] at h
          split
          · rfl
          · exact ihl h.2 _
        · rename_i hr
          have hr' : res > 0 := by omega
          simp only [hr, hr', if_true, if_false] at h
          split
          · rfl
          · exact ihr h.2 _

theorem bisectRightLoop_probes {cmp' : Compare K} {key : K} {t : Tree K V}
    (h : ∀ k ∈ probes cmp key t, cmp' key k = cmp key k) (i : Int) :
    bisectRightLoop cmp' key t i = bisectRightLoop cmp key t i := by
  induction t generalizing i with
  | nil => rfl
  | node k v l r c n ihl ihr =>
    simp only [probes, List.mem_cons, forall_eq_or_imp] at h
    unfold bisectRightLoop
    simp only [h.1]
    split
    · rfl
    · rename_i res hres
      simp only [hres] at h
      split
      · rfl
      · rename_i hz
        split
        · rename_i hr
          simp only [hr, if_true] at h
          split
          · rfl
          · exact ihl h.2 _
        · rename_i hr
          have hr' : res > 0 := by omega
          simp only [hr, hr', if_true, if_false] at h
          split
          · rfl
          · exact ihr h.2 _

end SM.LLRB.Tree

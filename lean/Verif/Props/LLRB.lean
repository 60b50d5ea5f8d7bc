import Verif.LLRB.Calls
import Verif.Props.Sample

/-!
Properties C01-C10 (in-memory map). `Tree.step` / `Tree.call` / `Tree.run` are the model;
`none` is a panic or a loop that does not end. `Spec.runC` is the sorted list.
-/

namespace SM.Props

open Spec LLRB LLRB.Tree

variable {K V : Type} {cmp : Compare K} {Valid : K → Prop}

/-- Every `Put` of the history has a key the compare function accepts; every other key
argument is arbitrary. -/
def PutsValid (Valid : K → Prop) (cs : List (Call K V)) : Prop :=
  ∀ c ∈ cs, ∀ k, c.putKey? = some k → Valid k

/-- A state an in-memory map can be in. -/
def Reach (cmp : Compare K) (Valid : K → Prop) (t : Tree K V) : Prop :=
  ∃ cs rs, PutsValid Valid cs ∧ Tree.run cmp .nil cs = some (rs, t)

theorem Reach.ok (H : Lawful cmp Valid) {t : Tree K V} (h : Reach cmp Valid t) :
    OK cmp Valid t := by
  obtain ⟨cs, rs, hp, hr⟩ := h
  obtain ⟨rs', t', e1, e2, -⟩ := run_ok H cs OK.nil hp
  rw [hr] at e1
  simp only [Option.some.injEq, Prod.mk.injEq] at e1
  rw [e1.2]; exact e2

/-- C01: every history gives exactly the answers of the sorted list. -/
theorem C01_llrb_refines_sorted_list (H : Lawful cmp Valid) (cs : List (Call K V))
    (hp : PutsValid Valid cs) :
    ∃ rs t, Tree.run cmp .nil cs = some (rs, t) ∧ AgreeAll rs (runC cmp [] cs).1 := by
  obtain ⟨rs, t, e1, -, e3, -⟩ := run_ok H cs OK.nil hp
  exact ⟨rs, t, e1, e3⟩

/-- C02: no operation panics (or fails to end) after any history. -/
theorem C02_llrb_never_panics (H : Lawful cmp Valid) (cs : List (Call K V)) (c : Call K V)
    (hp : PutsValid Valid (cs ++ [c])) :
    ∃ rs t r t', Tree.run cmp .nil cs = some (rs, t) ∧ Tree.call cmp t c = some (r, t') := by
  obtain ⟨rs, t, e1, e2, -⟩ := run_ok H cs OK.nil
    (fun c' h => hp c' (List.mem_append_left _ h))
  obtain ⟨r, t', g1, -⟩ := call_ok H e2 c (hp c (by simp))
  exact ⟨rs, t, r, t', e1, g1⟩

/-- C03, depth: at most `2 * log2 (n + 1)` nodes on any path. -/
theorem C03_llrb_depth (H : Lawful cmp Valid) {t : Tree K V} (ht : Reach cmp Valid t) (n : Nat)
    (hn : t.len = n) : t.depth ≤ 2 * Nat.log2 (n + 1) := by
  have := (ht.ok H).depth_le
  have h2 := (ht.ok H).len_eq
  have h3 : t.toList.length = n := by omega
  rw [h3] at this; exact this

/-- C03, comparisons: the answers of GetByKey, BisectLeft and BisectRight depend on at most
`2 * log2 (n + 1)` results of the compare function: there is a list of that many keys such
that any other compare function with the same results on them gives the same answers. -/
theorem C03_llrb_comparisons (H : Lawful cmp Valid) {t : Tree K V} (ht : Reach cmp Valid t)
    (n : Nat) (hn : t.len = n) (key : K) :
    ∃ ks : List K, ks.length ≤ 2 * Nat.log2 (n + 1) ∧
      ∀ cmp' : Compare K, (∀ k ∈ ks, cmp' key k = cmp key k) →
        getByKey cmp' key t = getByKey cmp key t ∧
        bisectLeft cmp' key t = bisectLeft cmp key t ∧
        bisectRight cmp' key t = bisectRight cmp key t := by
  refine ⟨probes cmp key t, Nat.le_trans (probes_length key t) (C03_llrb_depth H ht n hn), ?_⟩
  intro cmp' h
  refine ⟨getByKey_probes h, ?_, ?_⟩
  · cases t with
    | nil => rfl
    | node k v l r c m => unfold bisectLeft; exact bisectLeftLoop_probes h _
  · cases t with
    | nil => rfl
    | node k v l r c m => unfold bisectRight; exact bisectRightLoop_probes h _

/-- C03, comparisons of Put: two descents, one in the old and one in the new tree. -/
theorem C03_llrb_put_comparisons (H : Lawful cmp Valid) {t : Tree K V} (ht : Reach cmp Valid t)
    (n : Nat) (hn : t.len = n) (key : K) (hk : Valid key) (value : V) :
    ∃ ks ks' : List K, ks.length ≤ 2 * Nat.log2 (n + 1) ∧ ks'.length ≤ 2 * Nat.log2 (n + 2) + 2 ∧
      ∀ cmp' : Compare K, (∀ k ∈ ks ++ ks', cmp' key k = cmp key k) →
        put cmp' key value t = put cmp key value t := by
  have hok := ht.ok H
  obtain ⟨m, hb⟩ := hok.bal
  have hi := insert_spec H (value := value) hk hok.valid hok.sorted hb
  have h1 : (probes cmp key t).length ≤ 2 * Nat.log2 (n + 1) :=
    Nat.le_trans (probes_length key t) (C03_llrb_depth H ht n hn)
  cases hh : has cmp key t.toList with
  | true =>
    refine ⟨probes cmp key t, [], h1, by simp, ?_⟩
    intro cmp' h
    have := insert_probes (value := value) (t := t) (cmp := cmp) (cmp' := cmp') (key := key)
      (fun k hk => h k (List.mem_append_left _ hk))
    simp [put, this, hi.1 hh]
  | false =>
    obtain ⟨t1, e1, e2, -, e4, -⟩ := hi.2 hh
    refine ⟨probes cmp key t, probes cmp key t1, h1, ?_, ?_⟩
    · have hb1 := e4 hok.black
      have d1 := hb1.depth_le
      have d2 := hb1.size_ge
      have hl : t1.toList.length = n + 1 := by
        have h2 := hok.len_eq
        rw [e2]
        have := below_above_wsum H hk hok.valid hok.sorted (find_none_iff.1 hh) (fun _ => 1)
        rw [wsum_one, wsum_one, wsum_one] at this
        simp; omega
      rw [hl] at d2
      have : m ≤ Nat.log2 (n + 2) := (Nat.le_log2 (by omega)).2 d2
      have := probes_length (cmp := cmp) key t1
      split at d1 <;> omega
    · intro cmp' h
      have g1 := insert_probes (value := value) (t := t) (cmp := cmp) (cmp' := cmp') (key := key)
        (fun k hk => h k (List.mem_append_left _ hk))
      have g2 := postInsertAdjustLen_probes (t := t1) (cmp := cmp) (cmp' := cmp') (key := key)
        (fun k hk => h k (List.mem_append_right _ hk))
      simp [put, g1, e1, g2]

/-- C03, comparisons of PatchByKey: one descent. -/
theorem C03_llrb_patch_comparisons (H : Lawful cmp Valid) {t : Tree K V} (ht : Reach cmp Valid t)
    (n : Nat) (hn : t.len = n) (key : K) (value : V) :
    ∃ ks : List K, ks.length ≤ 2 * Nat.log2 (n + 1) ∧
      ∀ cmp' : Compare K, (∀ k ∈ ks, cmp' key k = cmp key k) →
        patchByKey cmp' key value t = patchByKey cmp key value t :=
  ⟨probes cmp key t, Nat.le_trans (probes_length key t) (C03_llrb_depth H ht n hn),
    fun _ h => patchByKey_probes h⟩

/-- C03, comparisons of the deletions: DeleteByKey asks the compare function at most
`8 * log2 (n + 1)` times (a descent for the lengths, and at most three times at each of the
`2 * log2 (n + 1)` nodes on the way down), DeleteByIndex at most `6 * log2 (n + 1)` times. -/
theorem C03_llrb_delete_comparisons (H : Lawful cmp Valid) {t : Tree K V} (ht : Reach cmp Valid t)
    (n : Nat) (hn : t.len = n) :
    (∀ key, Valid key → ∃ ks : List K, ks.length ≤ 8 * Nat.log2 (n + 1) ∧
      ∀ cmp' : Compare K, (∀ k ∈ ks, cmp' key k = cmp key k) →
        deleteByKey cmp' key t = deleteByKey cmp key t) ∧
    (∀ i, ∃ ks : List (K × K), ks.length ≤ 6 * Nat.log2 (n + 1) ∧
      ∀ cmp' : Compare K, (∀ p ∈ ks, cmp' p.1 p.2 = cmp p.1 p.2) →
        deleteByIndex cmp' i t = deleteByIndex cmp i t) := by
  have hok := ht.ok H
  obtain ⟨m, hb⟩ := hok.bal
  have hL := hok.len_eq
  have hm : m ≤ Nat.log2 (n + 1) := by
    have := hb.size_ge
    exact (Nat.le_log2 (by omega)).2 (by omega)
  constructor
  · intro key hk
    have hd : (probes cmp key t).length ≤ 2 * Nat.log2 (n + 1) :=
      Nat.le_trans (probes_length key t) (C03_llrb_depth H ht n hn)
    obtain ⟨t1, e1, e2, e3, e4, -⟩ := preDeleteByKey_spec H hk hok.valid hok.sorted hok.lens
    cases hh : has cmp key t.toList with
    | false =>
      refine ⟨probes cmp key t, by omega, fun cmp' h => ?_⟩
      rw [deleteByKey, deleteByKey, preDeleteByKeyAdjustLen_probes h, e1, hh]
    | true =>
      obtain ⟨ks, h1, h2⟩ := delete_root_asks H hk (t := t1) (n := m) (by rw [e2]; exact hok.valid)
        (by rw [e2]; exact hok.sorted) (by rw [e2]; exact hh) e4 (e3.2 _ hb)
        (by rw [e3.1]; exact hok.black)
      refine ⟨probes cmp key t ++ ks, by simp; omega, fun cmp' h => ?_⟩
      rw [deleteByKey, deleteByKey,
        preDeleteByKeyAdjustLen_probes (fun k hk => h k (List.mem_append_left _ hk)), e1, hh]
      simp only [h2 cmp' (fun k hk => h k (List.mem_append_right _ hk))]
  · intro i
    by_cases hc : i < 0 ∨ t.isNil ∨ i ≥ t.len
    · exact ⟨[], by simp, fun cmp' _ => by rw [deleteByIndex, deleteByIndex, if_pos hc, if_pos hc]⟩
    · obtain ⟨j, rfl⟩ : ∃ j : Nat, i = j := ⟨i.toNat, by omega⟩
      have hj : j < t.toList.length := by omega
      obtain ⟨t1, e1, e2, e3, e4⟩ := preDeleteByIndex_spec H hok.valid hok.sorted hok.lens hj
      have hvi := hok.valid _ (List.getElem_mem hj)
      obtain ⟨ks, h1, h2⟩ := delete_root_asks H hvi (t := t1) (n := m) (by rw [e2]; exact hok.valid)
        (by rw [e2]; exact hok.sorted)
        (by rw [e2]; exact has_iff.2 ⟨_, List.getElem_mem hj, eqb_self H hvi⟩)
        e4 (e3.2 _ hb) (by rw [e3.1]; exact hok.black)
      refine ⟨ks.map (fun k => ((t.toList[j]).1, k)), by simp; omega, fun cmp' h => ?_⟩
      rw [deleteByIndex, deleteByIndex, if_neg hc, if_neg hc, e1]
      simp only [Option.bind_eq_bind, Option.bind_some]
      rw [h2 cmp' (fun k hk => h _ (List.mem_map.2 ⟨k, hk, rfl⟩))]

/-- the items, as GetByIndex shows them -/
theorem Reach.getByIndex (H : Lawful cmp Valid) {t : Tree K V} (h : Reach cmp Valid t) (i : Int) :
    Tree.getByIndex i t = some (at? i t.toList) := getByIndex_spec (h.ok H).lens i

theorem at?_nat {i : Nat} {l : List (K × V)} : at? (i : Int) l = l[i]? := by
  unfold at?; rw [if_neg (by omega)]; simp

theorem at?_some {i : Int} {l : List (K × V)} {p : K × V} (h : at? i l = some p) :
    ∃ j : Nat, i = j ∧ ∃ hj : j < l.length, l[j] = p := by
  unfold at? at h
  split at h
  · simp at h
  · obtain ⟨hj, e⟩ := List.getElem?_eq_some_iff.1 h
    exact ⟨i.toNat, by omega, hj, e⟩

/-- Splitting a sorted list at a key: positions before `below.length` are smaller. -/
theorem below_pos (H : Lawful cmp Valid) {l : List (K × V)} (hv : AllValid Valid l)
    (hs : Sorted cmp l) {k : K} (hk : Valid k) {j : Nat} (hj : j < l.length) :
    (j < (below cmp k l).length ↔ ltb cmp (l[j]).1 k = true) := by
  induction l generalizing j with
  | nil => simp at hj
  | cons p l ih =>
    simp only [AllValid_cons] at hv
    simp only [Sorted, List.pairwise_cons] at hs
    cases h : ltb cmp p.1 k with
    | true =>
      have : below cmp k (p :: l) = p :: below cmp k l := by simp [below, h]
      rw [this]
      cases j with
      | zero => simp [h]
      | succ j => simp; exact ih hv.2 hs.2 _
    | false =>
      have hnil : below cmp k (p :: l) = [] := by
        simp only [below, List.filter_eq_nil_iff, List.mem_cons]
        rintro q (rfl | hq)
        · simp [h]
        · intro hc
          have := H.ltb_trans hv.1 (hv.2 q hq) hk (hs.1 q hq) hc
          simp_all
      rw [hnil]
      cases j with
      | zero => simp [h]
      | succ j =>
        simp only [List.length_nil, Nat.not_lt_zero, List.getElem_cons_succ, false_iff]
        intro hc
        simp only [List.length_cons] at hj
        have hm : l[j]'(by omega) ∈ l := List.getElem_mem _
        have := H.ltb_trans hv.1 (hv.2 _ hm) hk (hs.1 _ hm) hc
        simp_all

theorem below_len_le {k : K} (l : List (K × V)) : (below cmp k l).length ≤ l.length :=
  List.length_filter_le _ _

/-- C04, key present: both bisects answer its index. -/
theorem C04_llrb_bisect_present (H : Lawful cmp Valid) {t : Tree K V} (ht : Reach cmp Valid t)
    {key k : K} {v : V} {i : Int} (hk : Valid key) (hi : Tree.getByIndex i t = some (some (k, v)))
    (he : cmp key k = .ok 0) :
    bisectLeft cmp key t = some (i, true, none) ∧ bisectRight cmp key t = some (i, true, none) := by
  have hok := ht.ok H
  rw [ht.getByIndex H] at hi
  simp only [Option.some.injEq] at hi
  obtain ⟨j, rfl, hj, e⟩ := at?_some hi
  have heq : eqb cmp key k = true := by simp [eqb, he]
  have hh : has cmp key t.toList = true := by
    apply has_iff.2
    exact ⟨(k, v), by rw [← e]; exact List.getElem_mem _, heq⟩
  have hvk : Valid k := by
    have := hok.valid _ (List.getElem_mem hj); rw [e] at this; exact this
  have hlt := H.cases_cmp hk hvk
  obtain ⟨c, hc, hlt⟩ := hlt
  have hnot : ltb cmp key k = false ∧ ltb cmp k key = false := by
    rcases hlt with h | h | h <;> simp_all
  have hlen : (below cmp key t.toList).length = j := by
    have h1 := below_pos H hok.valid hok.sorted hk hj
    rw [e] at h1
    have h2 := below_len_le (cmp := cmp) (k := key) t.toList
    rw [hnot.2] at h1
    by_cases h3 : (below cmp key t.toList).length < j
    · exfalso
      have h4 : (below cmp key t.toList).length < t.toList.length := by omega
      have h5 := (below_pos H hok.valid hok.sorted hk h4)
      simp only [Nat.lt_irrefl, false_iff] at h5
      have h6 := List.pairwise_iff_getElem.1 hok.sorted _ _ h4 hj h3
      rw [e] at h6
      have h7 := hok.valid _ (List.getElem_mem h4)
      have := H.lt_nlt_trans h7 hvk hk h6 hnot.1
      simp_all
    · simp at h1; omega
  rw [bisectLeft_spec H hok hk, bisectRight_spec H hok hk, hh, hlen]
  simp

/-- C04, key absent: BisectLeft answers the index of the last smaller item (`-1` if there is
none), BisectRight that of the first larger one (`n` if there is none): every item at or below
the left index is smaller, every item at or above the right index larger, and the two indices
are adjacent. -/
theorem C04_llrb_bisect_absent (H : Lawful cmp Valid) {t : Tree K V} (ht : Reach cmp Valid t)
    {key : K} (hk : Valid key)
    (habs : ∀ i k v, Tree.getByIndex i t = some (some (k, v)) → cmp key k ≠ .ok 0) :
    ∃ i : Int, bisectLeft cmp key t = some (i, false, none) ∧
      bisectRight cmp key t = some (i + 1, false, none) ∧ -1 ≤ i ∧ i < t.len ∧
      ∀ j k v, Tree.getByIndex j t = some (some (k, v)) →
        (j ≤ i → ∃ c, cmp k key = .ok c ∧ c < 0) ∧ (i < j → ∃ c, cmp key k = .ok c ∧ c < 0) := by
  have hok := ht.ok H
  have hh : has cmp key t.toList = false := by
    rw [Bool.eq_false_iff]
    intro h
    obtain ⟨p, hp, he⟩ := has_iff.1 h
    obtain ⟨j, hj, e⟩ := List.getElem_of_mem hp
    apply habs j p.1 p.2
    · rw [ht.getByIndex H, at?_nat, List.getElem?_eq_getElem hj, e]
    · exact eqb_iff.1 he
  have hle := below_len_le (cmp := cmp) (k := key) t.toList
  have hlen := hok.len_eq
  refine ⟨((below cmp key t.toList).length : Int) - 1, ?_, ?_, by omega, by omega, ?_⟩
  · rw [bisectLeft_spec H hok hk, hh]; simp
  · rw [bisectRight_spec H hok hk, hh]; simp
  · intro j k v hj
    rw [ht.getByIndex H] at hj
    simp only [Option.some.injEq] at hj
    obtain ⟨m, rfl, hm, e⟩ := at?_some hj
    have h1 := below_pos H hok.valid hok.sorted hk hm
    have hvk : Valid k := by
      have := hok.valid _ (List.getElem_mem hm); rw [e] at this; exact this
    rw [e] at h1
    refine ⟨fun h => ltb_iff.1 (h1.1 (by omega)), fun h => ?_⟩
    have h2 : ltb cmp k key = false := by
      rw [Bool.eq_false_iff]; intro h3; have := h1.2 h3; omega
    have h3 : eqb cmp key k = false := by
      have := find_none_iff.1 hh _ (List.getElem_mem hm); rw [e] at this; exact this
    rw [H.eqb_eq_lt hk hvk, h2] at h3
    simp at h3
    exact ltb_iff.1 h3

/-- C05: GetByIndex succeeds exactly on `0 .. Len-1`. -/
theorem C05_llrb_index_range (H : Lawful cmp Valid) {t : Tree K V} (ht : Reach cmp Valid t)
    (i : Int) :
    (∃ p, Tree.getByIndex i t = some (some p)) ↔ 0 ≤ i ∧ i < t.len := by
  rw [ht.getByIndex H, (ht.ok H).len_eq]
  have := at?_isSome (i := i) (l := t.toList)
  rw [Bool.eq_iff_iff, Option.isSome_iff_exists] at this
  simpa using this

/-- C05: keys strictly increase with the index. -/
theorem C05_llrb_index_order (H : Lawful cmp Valid) {t : Tree K V} (ht : Reach cmp Valid t)
    {i j : Int} {k₁ k₂ : K} {v₁ v₂ : V} (h1 : Tree.getByIndex i t = some (some (k₁, v₁)))
    (h2 : Tree.getByIndex j t = some (some (k₂, v₂))) (hij : i < j) :
    ∃ c, cmp k₁ k₂ = .ok c ∧ c < 0 := by
  rw [ht.getByIndex H, Option.some.injEq] at h1 h2
  obtain ⟨a, rfl, ha, e1⟩ := at?_some h1
  obtain ⟨b, rfl, hb, e2⟩ := at?_some h2
  have := List.pairwise_iff_getElem.1 (ht.ok H).sorted a b ha hb (by omega)
  rw [e1, e2] at this
  exact ltb_iff.1 this

theorem find_of_getElem (H : Lawful cmp Valid) {l : List (K × V)} (hv : AllValid Valid l)
    (hs : Sorted cmp l) {j : Nat} (hj : j < l.length) : find cmp (l[j]).1 l = some l[j] := by
  have hsplit : l = l.take j ++ l[j] :: l.drop (j + 1) := by simp
  have hvi := hv _ (List.getElem_mem hj)
  have := (mid_eq H (l₁ := l.take j) (p := l[j]) (l₂ := l.drop (j + 1)) (k := (l[j]).1)
    (by rw [← hsplit]; exact hv) (by rw [← hsplit]; exact hs) hvi (eqb_self H hvi)).2.2.1
  rw [← hsplit] at this
  exact this

/-- C05: GetByKey of the key at an index gives the value at that index. -/
theorem C05_llrb_key_index_agree (H : Lawful cmp Valid) {t : Tree K V} (ht : Reach cmp Valid t)
    {i : Int} {k : K} {v : V} (h : Tree.getByIndex i t = some (some (k, v))) :
    getByKey cmp k t = (some v, none) := by
  rw [ht.getByIndex H, Option.some.injEq] at h
  obtain ⟨a, rfl, ha, e⟩ := at?_some h
  have hok := ht.ok H
  have hv := hok.valid _ (List.getElem_mem ha)
  have hf := find_of_getElem H hok.valid hok.sorted ha
  rw [e] at hv hf
  rw [getByKey_spec H hv hok.valid hok.sorted, hf]
  rfl

/-- Two maps a client cannot tell apart. -/
def SameItems (t t' : Tree K V) : Prop :=
  t'.len = t.len ∧ ∀ i, Tree.getByIndex i t' = Tree.getByIndex i t

theorem SameItems.of_list {t t' : Tree K V} (h : OK cmp Valid t) (h' : OK cmp Valid t')
    (e : t'.toList = t.toList) : SameItems t t' :=
  ⟨by rw [h.len_eq, h'.len_eq, e], fun i => by
    rw [getByIndex_spec h.lens, getByIndex_spec h'.lens, e]⟩

/-- C06: Put of a present key changes nothing. -/
theorem C06_llrb_put_present (H : Lawful cmp Valid) {t : Tree K V} (ht : Reach cmp Valid t)
    {k : K} (hk : Valid k) {w : V} (hp : getByKey cmp k t = (some w, none)) (v : V) :
    ∃ t', put cmp k v t = some ((false, none), t') ∧ SameItems t t' := by
  have hok := ht.ok H
  obtain ⟨t', e1, e2, e3⟩ := put_spec H (value := v) hok hk
  have hh : has cmp k t.toList = true := by
    rw [getByKey_spec H hk hok.valid hok.sorted] at hp
    unfold has; cases h : find cmp k t.toList <;> simp_all
  rw [hh] at e1 e3
  exact ⟨t', e1, SameItems.of_list hok e2 (by simpa using e3)⟩

/-- C06: PatchByKey of an absent key changes nothing. -/
theorem C06_llrb_patchByKey_absent (H : Lawful cmp Valid) {t : Tree K V} (ht : Reach cmp Valid t)
    {k : K} (hk : Valid k) (ha : getByKey cmp k t = (none, none)) (v : V) :
    ∃ t', patchByKey cmp k v t = ((false, none), t') ∧ SameItems t t' := by
  have hok := ht.ok H
  obtain ⟨r, t', e1, e2, e3, e4⟩ := step_ok H hok (.patchByKey k v) (by simp [Op.putKey?])
  have hh : has cmp k t.toList = false := by
    rw [getByKey_spec H hk hok.valid hok.sorted] at ha
    unfold has; cases h : find cmp k t.toList <;> simp_all
  obtain ⟨t'', g1, g2, g3⟩ := patchByKey_ok H (value := v) hok hk
  simp only [Tree.step, g1, Option.some.injEq, Prod.mk.injEq] at e1
  rw [hh] at g1
  refine ⟨t'', g1, SameItems.of_list hok g2 ?_⟩
  rw [e1.2, e4]
  simp [stepE, Op.key?, rejects_valid H hk hok.valid, Spec.step, hh]

/-- C06: PatchByIndex outside the range changes nothing. -/
theorem C06_llrb_patchByIndex_absent (H : Lawful cmp Valid) {t : Tree K V}
    (ht : Reach cmp Valid t) {i : Int} (hi : ¬ (0 ≤ i ∧ i < t.len)) (v : V) :
    ∃ t', patchByIndex i v t = some ((false, none), t') ∧ SameItems t t' := by
  have hok := ht.ok H
  obtain ⟨t', e1, e2, e3, e4⟩ := patchByIndex_ok hok i v
  rw [hok.len_eq] at hi
  rw [at?_isSome, decide_eq_false hi] at e1 e4
  exact ⟨t', e1, by rw [e4 rfl]; exact SameItems.of_list hok hok rfl⟩

/-- C06: a successful PatchByIndex replaces the value at that index and nothing else. -/
theorem C06_llrb_patchByIndex_present (H : Lawful cmp Valid) {t : Tree K V}
    (ht : Reach cmp Valid t) {i : Int} {k : K} {w : V}
    (hi : Tree.getByIndex i t = some (some (k, w))) (v : V) :
    ∃ t', patchByIndex i v t = some ((true, none), t') ∧ t'.len = t.len ∧
      Tree.getByIndex i t' = some (some (k, v)) ∧
      ∀ j, j ≠ i → Tree.getByIndex j t' = Tree.getByIndex j t := by
  have hok := ht.ok H
  obtain ⟨t', e1, e2, e3, e4⟩ := patchByIndex_ok hok i v
  rw [ht.getByIndex H, Option.some.injEq] at hi
  rw [hi] at e1 e3
  simp only [Option.isSome_some, if_true] at e1 e3
  obtain ⟨a, rfl, ha, e⟩ := at?_some hi
  refine ⟨t', e1, ?_, ?_, ?_⟩
  · rw [hok.len_eq, e2.len_eq, e3]; simp [setIndex]
  · rw [getByIndex_spec e2.lens, e3, at?_nat, setIndex, List.getElem?_modify]
    simp [List.getElem?_eq_getElem ha, e]
  · intro j hj
    rw [getByIndex_spec e2.lens, getByIndex_spec hok.lens, e3]
    unfold at?
    split
    · rfl
    · rw [setIndex, List.getElem?_modify]
      have : ¬ a = j.toNat := by omega
      simp [this]

/-- C06: a successful PatchByKey replaces the value of that item and nothing else; the stored
key stays the stored one, even if the argument is a different key that compares equal. -/
theorem C06_llrb_patchByKey_present (H : Lawful cmp Valid) {t : Tree K V}
    (ht : Reach cmp Valid t) {i : Int} {k key : K} {w : V} (hkey : Valid key)
    (hi : Tree.getByIndex i t = some (some (k, w))) (he : cmp key k = .ok 0) (v : V) :
    ∃ t', patchByKey cmp key v t = ((true, none), t') ∧ t'.len = t.len ∧
      Tree.getByIndex i t' = some (some (k, v)) ∧
      ∀ j, j ≠ i → Tree.getByIndex j t' = Tree.getByIndex j t := by
  have hok := ht.ok H
  obtain ⟨t', e1, e2, e3⟩ := patchByKey_ok H (value := v) hok hkey
  rw [ht.getByIndex H, Option.some.injEq] at hi
  obtain ⟨a, rfl, ha, e⟩ := at?_some hi
  have hek : eqb cmp key k = true := eqb_iff.2 he
  have hh : has cmp key t.toList = true :=
    has_iff.2 ⟨_, List.getElem_mem ha, by rw [e]; exact hek⟩
  rw [hh] at e1
  have hsplit : t.toList = t.toList.take a ++ (k, w) :: t.toList.drop (a + 1) := by
    rw [← e]; simp
  have hm := mid_eq H (l₁ := t.toList.take a) (p := (k, w)) (l₂ := t.toList.drop (a + 1)) (k := key)
    (by rw [← hsplit]; exact hok.valid) (by rw [← hsplit]; exact hok.sorted) hkey hek
  have hmap : ∀ {l : List (K × V)}, (∀ p ∈ l, eqb cmp key p.1 = false) →
      setKey cmp key v l = l := by
    intro l h
    rw [setKey]
    conv => rhs; rw [← List.map_id l]
    apply List.map_congr_left
    intro p hp; simp [h p hp]
  have e4 : t'.toList = t.toList.set a (k, v) := by
    rw [e3]
    conv => lhs; rw [hsplit]
    have : setKey cmp key v (t.toList.take a ++ (k, w) :: t.toList.drop (a + 1)) =
        setKey cmp key v (t.toList.take a) ++ (k, v) :: setKey cmp key v (t.toList.drop (a + 1)) := by
      simp [setKey, hek]
    rw [this, hmap hm.2.2.2.2.1, hmap hm.2.2.2.2.2, List.set_eq_take_append_cons_drop, if_pos ha]
  refine ⟨t', e1, ?_, ?_, ?_⟩
  · rw [hok.len_eq, e2.len_eq, e4]; simp
  · rw [getByIndex_spec e2.lens, e4, at?_nat]; simp [ha]
  · intro j hj
    rw [getByIndex_spec e2.lens, getByIndex_spec hok.lens, e4]
    unfold at?
    split
    · rfl
    · rw [List.getElem?_set_ne (by omega)]

/-- `t'` is `t` without its `i`-th item. -/
def Without (i : Int) (t t' : Tree K V) : Prop :=
  t'.len = t.len - 1 ∧
  (∀ j, j < i → Tree.getByIndex j t' = Tree.getByIndex j t) ∧
  (∀ j, i ≤ j → Tree.getByIndex j t' = Tree.getByIndex (j + 1) t)

theorem without_of_erase {t t' : Tree K V} (h : OK cmp Valid t) (h' : OK cmp Valid t')
    {a : Nat} (ha : a < t.toList.length) (e : t'.toList = t.toList.eraseIdx a) :
    Without a t t' := by
  refine ⟨?_, ?_, ?_⟩
  · rw [h.len_eq, h'.len_eq, e, List.length_eraseIdx, if_pos ha]; omega
  · intro j hj
    rw [getByIndex_spec h.lens, getByIndex_spec h'.lens, e]
    unfold at?
    split
    · rfl
    · rw [List.getElem?_eraseIdx, if_pos (by omega)]
  · intro j hj
    rw [getByIndex_spec h.lens, getByIndex_spec h'.lens, e]
    unfold at?
    rw [if_neg (by omega), if_neg (by omega), List.getElem?_eraseIdx, if_neg (by omega)]
    congr 2
    omega

/-- C07: DeleteByIndex of an existing index removes that item only. -/
theorem C07_llrb_deleteByIndex_present (H : Lawful cmp Valid) {t : Tree K V}
    (ht : Reach cmp Valid t) {i : Int} (hi : 0 ≤ i ∧ i < t.len) :
    ∃ t', deleteByIndex cmp i t = some ((true, none), t') ∧ Without i t t' := by
  have hok := ht.ok H
  obtain ⟨t', e1, e2, e3, -⟩ := deleteByIndex_spec H hok i
  rw [hok.len_eq] at hi
  rw [at?_isSome, decide_eq_true hi] at e1 e3
  obtain ⟨a, rfl⟩ : ∃ a : Nat, i = a := ⟨i.toNat, by omega⟩
  exact ⟨t', e1, without_of_erase hok e2 (by omega) (by simpa using e3)⟩

/-- C07: DeleteByIndex of a missing index changes nothing. -/
theorem C07_llrb_deleteByIndex_absent (H : Lawful cmp Valid) {t : Tree K V}
    (ht : Reach cmp Valid t) {i : Int} (hi : ¬ (0 ≤ i ∧ i < t.len)) :
    deleteByIndex cmp i t = some ((false, none), t) := by
  have hok := ht.ok H
  obtain ⟨t', e1, e2, -, e4⟩ := deleteByIndex_spec H hok i
  rw [hok.len_eq] at hi
  rw [at?_isSome, decide_eq_false hi] at e1 e4
  rw [e1, e4 rfl]

/-- C07: DeleteByKey of a present key removes that item only. -/
theorem C07_llrb_deleteByKey_present (H : Lawful cmp Valid) {t : Tree K V}
    (ht : Reach cmp Valid t) {i : Int} {k key : K} {v : V} (hkey : Valid key)
    (hi : Tree.getByIndex i t = some (some (k, v))) (he : cmp key k = .ok 0) :
    ∃ t', deleteByKey cmp key t = some ((true, none), t') ∧ Without i t t' := by
  have hok := ht.ok H
  obtain ⟨t', e1, e2, e3, -⟩ := deleteByKey_spec H hok hkey
  rw [ht.getByIndex H, Option.some.injEq] at hi
  obtain ⟨a, rfl, ha, e⟩ := at?_some hi
  have hek : eqb cmp key k = true := eqb_iff.2 he
  have hh : has cmp key t.toList = true :=
    has_iff.2 ⟨_, List.getElem_mem ha, by rw [e]; exact hek⟩
  rw [hh] at e1
  refine ⟨t', e1, without_of_erase hok e2 ha ?_⟩
  have hsplit : t.toList = t.toList.take a ++ (k, v) :: t.toList.drop (a + 1) := by
    rw [← e]; simp
  have hm := (mid_eq H (l₁ := t.toList.take a) (p := (k, v)) (l₂ := t.toList.drop (a + 1)) (k := key)
    (by rw [← hsplit]; exact hok.valid) (by rw [← hsplit]; exact hok.sorted) hkey hek).2.2.2.1
  rw [← hsplit] at hm
  rw [e3, hm, List.eraseIdx_eq_take_drop_succ]

/-- C07: DeleteByKey of an absent key changes nothing. -/
theorem C07_llrb_deleteByKey_absent (H : Lawful cmp Valid) {t : Tree K V} (ht : Reach cmp Valid t)
    {key : K} (hk : Valid key) (ha : getByKey cmp key t = (none, none)) :
    deleteByKey cmp key t = some ((false, none), t) := by
  have hok := ht.ok H
  obtain ⟨t', e1, e2, -, e4⟩ := deleteByKey_spec H hok hk
  have hh : has cmp key t.toList = false := by
    rw [getByKey_spec H hk hok.valid hok.sorted] at ha
    unfold has; cases h : find cmp key t.toList <;> simp_all
  rw [hh] at e1 e4
  rw [e1, e4 rfl]

/-- C08: Validate accepts, and Len counts the items GetByIndex shows. -/
theorem C08_llrb_validate_len (H : Lawful cmp Valid) {t : Tree K V} (ht : Reach cmp Valid t) :
    t.validate = none ∧
    ∃ items : List (K × V), t.len = items.length ∧
      ∀ i : Nat, Tree.getByIndex i t = some items[i]? :=
  ⟨validate_none (ht.ok H).lens, t.toList, (ht.ok H).len_eq, fun i => by
    rw [ht.getByIndex H, at?_nat]⟩

/-- C09: a keyed operation with a rejected key on a non-empty map hands back an error of the
compare function (for that key against a stored one) and the very same map. -/
theorem C09_llrb_compare_error (H : Lawful cmp Valid) {t : Tree K V} (ht : Reach cmp Valid t)
    (hne : t.len ≠ 0) (op : Op K V) {k : K} (hk : op.key? = some k) (hbad : ¬ Valid k) :
    ∃ a e, Tree.step cmp t op = some ((a, some e), t) ∧
      ∃ i k' v', Tree.getByIndex i t = some (some (k', v')) ∧ cmp k k' = .error e := by
  have hok := ht.ok H
  have hn : t ≠ .nil := by rintro rfl; exact hne rfl
  have key : ∀ {e : Err}, (∃ p ∈ t.toList, cmp k p.1 = .error e) →
      ∃ i k' v', Tree.getByIndex i t = some (some (k', v')) ∧ cmp k k' = .error e := by
    rintro e ⟨p, hp, hc⟩
    obtain ⟨j, hj, e'⟩ := List.getElem_of_mem hp
    exact ⟨j, p.1, p.2, by rw [ht.getByIndex H, at?_nat, List.getElem?_eq_getElem hj, e'], hc⟩
  cases op <;> simp only [Op.key?, Option.some.injEq, reduceCtorEq] at hk <;> subst hk
  · rename_i k v
    obtain ⟨e, he, h⟩ := put_invalid H hbad hn (value := v)
    exact ⟨_, e, by simp only [Tree.step, he, Option.map_some]; rfl, key h⟩
  · obtain ⟨e, he, h⟩ := getByKey_invalid H hbad hn
    exact ⟨_, e, by simp only [Tree.step, he]; rfl, key h⟩
  · rename_i k v
    obtain ⟨e, he, h⟩ := patchByKey_invalid H hbad hn (value := v)
    exact ⟨_, e, by simp only [Tree.step, he]; rfl, key h⟩
  · obtain ⟨e, he, h⟩ := deleteByKey_invalid H hbad hn
    exact ⟨_, e, by simp only [Tree.step, he, Option.map_some]; rfl, key h⟩
  · obtain ⟨e, he, h⟩ := bisectLeft_invalid H hbad hn
    exact ⟨_, e, by simp only [Tree.step, he, Option.map_some]; rfl, key h⟩
  · obtain ⟨e, he, h⟩ := bisectRight_invalid H hbad hn
    exact ⟨_, e, by simp only [Tree.step, he, Option.map_some]; rfl, key h⟩

/-- C09, empty map: every keyed operation but Put gives the empty-map answer. -/
theorem C09_llrb_compare_error_empty (op : Op K V) (h : op.putKey? = none) :
    Tree.step cmp (.nil : Tree K V) op = some (((Spec.step cmp [] op).1, none), .nil) := by
  cases op <;> first | rfl | (simp [Op.putKey?] at h; done) | skip
  · simp [Tree.step, Spec.step, getByIndex, at?]
  · rename_i i v
    simp only [Tree.step, Spec.step, patchByIndex, at?, List.getElem?_nil]
    split <;> simp
  · rename_i i
    simp [Tree.step, Spec.step, deleteByIndex, at?, isNil]

/-- C10 is false: on an empty map a rejected key is stored, and then no keyed operation works. -/
theorem C10_llrb_rejected_key_stored :
    ∃ (cmp : Compare Nat) (Valid : Nat → Prop) (k : Nat) (t : Tree Nat Nat),
      Lawful cmp Valid ∧ ¬ Valid k ∧ (∀ b, ∃ e, cmp k b = .error e) ∧
      put cmp k 7 .nil = some ((true, none), t) ∧ t.len = 1 ∧
      Tree.getByIndex 0 t = some (some (k, 7)) ∧
      (∀ k', ∃ e, getByKey cmp k' t = (none, some e)) := by
  refine ⟨Sample.cmp, Sample.Valid, 5000, .node 5000 7 .nil .nil false 1, Sample.lawful,
    by simp [Sample.Valid], fun b => ⟨_, by simp [Sample.cmp]; rfl⟩, rfl, rfl, rfl, ?_⟩
  intro k'
  by_cases h : 1000 ≤ k'
  · exact ⟨_, by simp [getByKey, Sample.cmp, h]; rfl⟩
  · exact ⟨_, by simp [getByKey, Sample.cmp, h]; rfl⟩

/-- C10, the part that holds: on a non-empty map a rejected key is refused with the error.
Missing: the empty map, where the claim is false (`C10_llrb_rejected_key_stored`). -/
theorem C10_llrb_rejected_key_partial (H : Lawful cmp Valid) {t : Tree K V}
    (ht : Reach cmp Valid t) (hne : t.len ≠ 0) {k : K} (hk : ¬ Valid k) (v : V) :
    ∃ e, put cmp k v t = some ((false, some e), t) := by
  obtain ⟨e, he, -⟩ := put_invalid H hk (value := v) (t := t) (by rintro rfl; exact hne rfl)
  exact ⟨e, he⟩

/-! ### The hypotheses can be met -/

/-- A history with insertions, a duplicate, deletions, patches, a rejected look-up. -/
def sampleCalls : List (Call Nat Nat) :=
  [.op (.put 5 50), .op (.put 3 30), .op (.put 8 80), .op (.put 1 10), .op (.put 4 40),
   .op (.put 9 90), .op (.put 3 33), .op (.deleteByKey 5), .op (.getByKey 2000),
   .op (.patchByIndex 1 31), .op (.deleteByIndex 0), .op (.bisectLeft 7), .op .len]

example : PutsValid Sample.Valid sampleCalls := by
  intro c hc k hk
  simp only [sampleCalls, List.mem_cons, List.not_mem_nil, or_false] at hc
  rcases hc with rfl | rfl | rfl | rfl | rfl | rfl | rfl | rfl | rfl | rfl | rfl | rfl | rfl <;>
    simp_all [Call.putKey?, Op.putKey?, Sample.Valid] <;> omega

/-- The tree after `sampleCalls`, and that it is reachable, non-empty, with the expected answers. -/
theorem sample_reach : ∃ t : Tree Nat Nat, Reach Sample.cmp Sample.Valid t ∧ t.len = 4 ∧
    t.toList = [(3, 31), (4, 40), (8, 80), (9, 90)] := by
  refine ⟨_, ⟨sampleCalls, _, ?_, rfl⟩, rfl, rfl⟩
  intro c hc k hk
  simp only [sampleCalls, List.mem_cons, List.not_mem_nil, or_false] at hc
  rcases hc with rfl | rfl | rfl | rfl | rfl | rfl | rfl | rfl | rfl | rfl | rfl | rfl | rfl <;>
    simp_all [Call.putKey?, Op.putKey?, Sample.Valid] <;> omega

example : (runC Sample.cmp [] sampleCalls).1 =
    [some (.done true), some (.done true), some (.done true), some (.done true), some (.done true),
     some (.done true), some (.done false), some (.done true), none, some (.done true),
     some (.done true), some (.index 1 false), some (.count 4)] := by
  rfl

/-- On the sample, with four items: deleting the key 8 asks at most 16 times. -/
example : ∃ t : Tree Nat Nat, t.toList = [(3, 31), (4, 40), (8, 80), (9, 90)] ∧
    ∃ ks : List Nat, ks.length ≤ 16 ∧ ∀ cmp' : Compare Nat,
      (∀ k ∈ ks, cmp' 8 k = Sample.cmp 8 k) →
        deleteByKey cmp' 8 t = deleteByKey Sample.cmp 8 t := by
  obtain ⟨t, ht, h1, h2⟩ := sample_reach
  obtain ⟨ks, g1, g2⟩ := (C03_llrb_delete_comparisons Sample.lawful ht 4 h1).1 8
    (by simp [Sample.Valid])
  exact ⟨t, h2, ks, Nat.le_trans g1 (by decide), g2⟩

/-- On the sample: 4 is present at index 1, 7 is absent, 2000 is rejected. -/
example : ∃ t : Tree Nat Nat, Reach Sample.cmp Sample.Valid t ∧
    Tree.getByIndex 1 t = some (some (4, 40)) ∧ Sample.cmp 4 4 = .ok 0 ∧
    getByKey Sample.cmp 7 t = (none, none) ∧ ¬ Sample.Valid 2000 ∧ t.len ≠ 0 ∧
    (∀ i k v, Tree.getByIndex i t = some (some (k, v)) → Sample.cmp 7 k ≠ .ok 0) := by
  obtain ⟨t, ht, h1, h2⟩ := sample_reach
  have hok := ht.ok Sample.lawful
  refine ⟨t, ht, ?_, rfl, ?_, by simp [Sample.Valid], by omega, ?_⟩
  · rw [ht.getByIndex Sample.lawful, h2]; rfl
  · rw [getByKey_spec Sample.lawful (by simp [Sample.Valid]) hok.valid hok.sorted, h2]; rfl
  · intro i k v h
    rw [ht.getByIndex Sample.lawful, h2, Option.some.injEq] at h
    obtain ⟨j, -, hj, e⟩ := at?_some h
    have : (k, v) ∈ [(3, 31), (4, 40), (8, 80), (9, 90)] := by rw [← e]; exact List.getElem_mem _
    simp only [List.mem_cons, Prod.mk.injEq, List.not_mem_nil, or_false] at this
    rcases this with h | h | h | h <;> rw [h.1] <;> simp [Sample.cmp]

end SM.Props

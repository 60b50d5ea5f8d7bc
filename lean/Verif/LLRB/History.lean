import Verif.LLRB.Read

/-! One call on the LLRB model, histories, and the refinement theorem. -/

namespace SM.LLRB.Tree

open Spec

variable {K V : Type} {cmp : Compare K} {Valid : K → Prop}

/-- One call of the `SortedMap` interface on an LLRB tree (llrb_tree.go:42-454,
llrb_validate.go:8-15): the values handed back, `err`, and the tree afterwards; `none` is a
panic. `Lock` and `Unlock` are not modelled here. -/
def step (cmp : Compare K) (t : Tree K V) : Op K V → Option ((Ans K V × Option Err) × Tree K V)
  | .put k v => (put cmp k v t).map fun r => ((.done r.1.1, r.1.2), r.2)
  | .getByKey k => let r := getByKey cmp k t; some ((.value r.1, r.2), t)
  | .getByIndex i => (getByIndex i t).map fun r => ((.item r, none), t)
  | .patchByKey k v => let r := patchByKey cmp k v t; some ((.done r.1.1, r.1.2), r.2)
  | .patchByIndex i v => (patchByIndex i v t).map fun r => ((.done r.1.1, r.1.2), r.2)
  | .deleteByKey k => (deleteByKey cmp k t).map fun r => ((.done r.1.1, r.1.2), r.2)
  | .deleteByIndex i => (deleteByIndex cmp i t).map fun r => ((.done r.1.1, r.1.2), r.2)
  | .bisectLeft k => (bisectLeft cmp k t).map fun r => ((.index r.1 r.2.1, r.2.2), t)
  | .bisectRight k => (bisectRight cmp k t).map fun r => ((.index r.1 r.2.1, r.2.2), t)
  | .len => some ((.count t.len, none), t)
  | .validate => some ((.unit, t.validate), t)

/-- One call, `Reset` (llrb_tree.go:456-458: `tree.root = nil`) included. -/
def call (cmp : Compare K) (t : Tree K V) : Call K V → Option ((Ans K V × Option Err) × Tree K V)
  | .op o => step cmp t o
  | .reset => some ((.unit, none), nil)

/-- A history of calls. -/
def run (cmp : Compare K) (t : Tree K V) :
    List (Call K V) → Option (List (Ans K V × Option Err) × Tree K V)
  | [] => some ([], t)
  | c :: cs =>
      match call cmp t c with
      | none => none
      | some (r, t') =>
          match run cmp t' cs with
          | none => none
          | some (rs, t'') => some (r :: rs, t'')

theorem rejects_valid (H : Lawful cmp Valid) {k : K} (hk : Valid k) {l : List (K × V)}
    (hv : AllValid Valid l) : rejects cmp k l = false := by
  simp only [rejects, List.any_eq_false]
  intro p hp
  obtain ⟨c, hc⟩ := H.total k p.1 hk (hv p hp)
  simp [hc]

theorem rejects_invalid (H : Lawful cmp Valid) {k : K} (hk : ¬ Valid k) {l : List (K × V)}
    (hl : l ≠ []) : rejects cmp k l = true := by
  cases l with
  | nil => exact absurd rfl hl
  | cons p l =>
    obtain ⟨e, he⟩ := H.error_of_not_valid (b := p.1) hk
    simp [rejects, he]

theorem toList_ne_nil {t : Tree K V} (h : t ≠ nil) : t.toList ≠ [] := by
  cases t <;> simp_all

/-- The central lemma: one operation on a good tree. -/
theorem step_ok (H : Lawful cmp Valid) {t : Tree K V} (ht : OK cmp Valid t) (op : Op K V)
    (hop : ∀ k, op.putKey? = some k → Valid k) :
    ∃ r t', step cmp t op = some (r, t') ∧ OK cmp Valid t' ∧
      Agrees r (stepE cmp t.toList op).1 ∧ t'.toList = (stepE cmp t.toList op).2 := by
  classical
  have hN := @rejects_valid K V cmp Valid H
  have hI : ∀ k, ¬ Valid k → t ≠ nil → rejects cmp k t.toList = true :=
    fun k hk h => rejects_invalid H hk (toList_ne_nil h)
  cases op with
  | put k v =>
    have hk : Valid k := hop k rfl
    obtain ⟨t', e1, e2, e3⟩ := put_spec H (value := v) ht hk
    simp only [step, e1, Option.map_some, Option.some.injEq, Prod.mk.injEq, exists_and_left,
      stepE, Op.key?, hN hk ht.valid]
    refine ⟨_, _, ⟨rfl, rfl⟩, e2, ?_, ?_⟩
    · cases h : has cmp k t.toList <;> simp [Agrees, Spec.step, h]
    · rw [e3]; cases h : has cmp k t.toList <;> simp [Spec.step, h]
  | getByKey k =>
    refine ⟨_, t, rfl, ht, ?_⟩
    simp only [stepE, Op.key?]
    by_cases hk : Valid k
    · rw [getByKey_spec H hk ht.valid ht.sorted, hN hk ht.valid]
      simp [Agrees, Spec.step]
    · by_cases hn : t = nil
      · subst hn; simp [getByKey, Spec.step, Spec.find, Agrees, rejects]
      · obtain ⟨e, he, -⟩ := getByKey_invalid H hk hn
        rw [he, hI k hk hn]; simp [Agrees]
  | getByIndex i =>
    exact ⟨_, t, by simp only [step, getByIndex_spec ht.lens, Option.map_some]; rfl, ht, by simp [Agrees, stepE, Op.key?, Spec.step]⟩
  | patchByKey k v =>
    simp only [stepE, Op.key?]
    by_cases hk : Valid k
    · obtain ⟨t', e1, e2, e3⟩ := patchByKey_ok H (value := v) ht hk
      refine ⟨_, t', by simp only [step, e1]; rfl, e2, ?_⟩
      rw [hN hk ht.valid, e3]
      cases h : has cmp k t.toList
      · simp only [Spec.step, h, Agrees, Bool.false_eq_true, if_false, true_and]
        simp only [setKey]
        conv => rhs; rw [← List.map_id t.toList]
        apply List.map_congr_left
        intro p hp
        have : eqb cmp k p.1 = false := by
          simp only [has, find, List.find?_isSome, Bool.eq_false_iff, ne_eq] at h
          simpa using fun hh => h ⟨p, hp, hh⟩
        simp [this]
      · simp [Spec.step, h, Agrees]
    · by_cases hn : t = nil
      · subst hn
        exact ⟨_, nil, rfl, ht, by simp [Spec.step, Spec.find, Agrees, rejects, patchByKey, has]⟩
      · obtain ⟨e, he, -⟩ := patchByKey_invalid H hk hn (value := v)
        refine ⟨_, t, by simp only [step, he]; rfl, ht, ?_⟩
        rw [hI k hk hn]; simp [Agrees]
  | patchByIndex i v =>
    obtain ⟨t', e1, e2, e3, -⟩ := patchByIndex_ok ht i v
    refine ⟨_, t', by simp only [step, e1, Option.map_some]; rfl, e2, ?_⟩
    simp only [stepE, Op.key?, Spec.step, e3]
    cases h : (at? i t.toList).isSome <;> simp [Agrees]
  | deleteByKey k =>
    simp only [stepE, Op.key?]
    by_cases hk : Valid k
    · obtain ⟨t', e1, e2, e3⟩ := deleteByKey_spec H ht hk
      refine ⟨_, t', by simp only [step, e1, Option.map_some]; rfl, e2, ?_⟩
      rw [hN hk ht.valid]
      simp only [Spec.step]
      cases h : has cmp k t.toList <;> simp_all [Agrees]
    · by_cases hn : t = nil
      · subst hn
        exact ⟨_, nil, rfl, ht, by simp [Spec.step, Spec.find, Agrees, rejects, has]⟩
      · obtain ⟨e, he, -⟩ := deleteByKey_invalid H hk hn
        refine ⟨_, t, by simp only [step, he, Option.map_some]; rfl, ht, ?_⟩
        rw [hI k hk hn]; simp [Agrees]
  | deleteByIndex i =>
    obtain ⟨t', e1, e2, e3⟩ := deleteByIndex_spec H ht i
    refine ⟨_, t', by simp only [step, e1, Option.map_some]; rfl, e2, ?_⟩
    simp only [stepE, Op.key?, Spec.step]
    cases h : (at? i t.toList).isSome <;> simp_all [Agrees]
  | bisectLeft k =>
    simp only [stepE, Op.key?]
    by_cases hk : Valid k
    · refine ⟨_, t, by simp only [step, bisectLeft_spec H ht hk, Option.map_some]; rfl, ht, ?_⟩
      rw [hN hk ht.valid]
      cases h : has cmp k t.toList <;> simp [Agrees, Spec.step, h]
    · by_cases hn : t = nil
      · subst hn
        exact ⟨_, nil, rfl, ht, by simp [Spec.step, Spec.find, Agrees, rejects, has, below]⟩
      · obtain ⟨e, he, -⟩ := bisectLeft_invalid H hk hn
        refine ⟨_, t, by simp only [step, he, Option.map_some]; rfl, ht, ?_⟩
        rw [hI k hk hn]; simp [Agrees]
  | bisectRight k =>
    simp only [stepE, Op.key?]
    by_cases hk : Valid k
    · refine ⟨_, t, by simp only [step, bisectRight_spec H ht hk, Option.map_some]; rfl, ht, ?_⟩
      rw [hN hk ht.valid]
      cases h : has cmp k t.toList <;> simp [Agrees, Spec.step, h]
    · by_cases hn : t = nil
      · subst hn
        exact ⟨_, nil, rfl, ht, by simp [Spec.step, Spec.find, Agrees, rejects, has, below]⟩
      · obtain ⟨e, he, -⟩ := bisectRight_invalid H hk hn
        refine ⟨_, t, by simp only [step, he, Option.map_some]; rfl, ht, ?_⟩
        rw [hI k hk hn]; simp [Agrees]
  | len => exact ⟨_, t, rfl, ht, by simp [Agrees, stepE, Op.key?, Spec.step, ht.len_eq]⟩
  | validate =>
    exact ⟨_, t, rfl, ht, by simp [Agrees, stepE, Op.key?, Spec.step, validate_none ht.lens]⟩

theorem call_ok (H : Lawful cmp Valid) {t : Tree K V} (ht : OK cmp Valid t) (c : Call K V)
    (hc : ∀ k, c.putKey? = some k → Valid k) :
    ∃ r t', call cmp t c = some (r, t') ∧ OK cmp Valid t' ∧
      Agrees r (stepC cmp t.toList c).1 ∧ t'.toList = (stepC cmp t.toList c).2 := by
  cases c with
  | op o => exact step_ok H ht o hc
  | reset => exact ⟨_, nil, rfl, OK.nil, rfl, rfl⟩

theorem run_ok (H : Lawful cmp Valid) (cs : List (Call K V)) : ∀ {t : Tree K V}, OK cmp Valid t →
    (∀ c ∈ cs, ∀ k, c.putKey? = some k → Valid k) →
    ∃ rs t', run cmp t cs = some (rs, t') ∧ OK cmp Valid t' ∧
      AgreeAll rs (runC cmp t.toList cs).1 ∧ t'.toList = (runC cmp t.toList cs).2 := by
  induction cs with
  | nil => intro t ht _; exact ⟨[], t, rfl, ht, trivial, rfl⟩
  | cons c cs ih =>
    intro t ht hc
    obtain ⟨r, t1, e1, e2, e3, e4⟩ := call_ok H ht c (hc c List.mem_cons_self)
    obtain ⟨rs, t2, g1, g2, g3, g4⟩ := ih e2 (fun c' h => hc c' (List.mem_cons_of_mem _ h))
    refine ⟨r :: rs, t2, by simp [run, e1, g1], g2, ?_, ?_⟩
    · simp only [runC]; exact ⟨e3, by rw [← e4]; exact g3⟩
    · simp only [runC]; rw [← e4]; exact g4

end SM.LLRB.Tree

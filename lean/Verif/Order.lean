import Verif.Spec

/-! Consequences of `Lawful` for `ltb` / `eqb`, and sorted-list facts. -/

namespace SM

variable {K V : Type} {cmp : Compare K} {Valid : K → Prop}

theorem ltb_iff {a b : K} : ltb cmp a b = true ↔ ∃ c, cmp a b = .ok c ∧ c < 0 := by
  unfold ltb; cases h : cmp a b <;> simp

theorem eqb_iff {a b : K} : eqb cmp a b = true ↔ cmp a b = .ok 0 := by
  unfold eqb; cases h : cmp a b <;> simp

namespace Lawful
variable (H : Lawful cmp Valid)
include H

/-- The result of a comparison of valid keys, with its meaning. -/
theorem cases_cmp {a b : K} (ha : Valid a) (hb : Valid b) :
    ∃ c, cmp a b = .ok c ∧
      ((c < 0 ∧ ltb cmp a b = true ∧ ltb cmp b a = false ∧ eqb cmp a b = false) ∨
       (0 < c ∧ ltb cmp a b = false ∧ ltb cmp b a = true ∧ eqb cmp a b = false) ∨
       (c = 0 ∧ ltb cmp a b = false ∧ ltb cmp b a = false ∧ eqb cmp a b = true)) := by
  obtain ⟨c, hc⟩ := H.total a b ha hb
  obtain ⟨d, hd⟩ := H.total b a hb ha
  have h1 := H.swap a b c d ha hb hc hd
  have h2 := H.swap b a d c hb ha hd hc
  refine ⟨c, hc, ?_⟩
  simp only [ltb, eqb, hc, hd, decide_eq_true_eq, decide_eq_false_iff_not]
  omega

theorem eqb_eq_lt {a b : K} (ha : Valid a) (hb : Valid b) :
    eqb cmp a b = (!ltb cmp a b && !ltb cmp b a) := by
  obtain ⟨c, _, h | h | h⟩ := H.cases_cmp ha hb <;> simp [h.2]

theorem eqb_comm {a b : K} (ha : Valid a) (hb : Valid b) : eqb cmp a b = eqb cmp b a := by
  rw [H.eqb_eq_lt ha hb, H.eqb_eq_lt hb ha, Bool.and_comm]

theorem ltb_irrefl {a : K} (ha : Valid a) : ltb cmp a a = false := by
  simp [ltb, H.refl a ha]

theorem ltb_asymm {a b : K} (ha : Valid a) (hb : Valid b) (h : ltb cmp a b = true) :
    ltb cmp b a = false := by
  obtain ⟨c, _, h' | h' | h'⟩ := H.cases_cmp ha hb <;> simp_all

/-- `≤` is transitive, phrased with `ltb`. -/
theorem nlt_trans {a b c : K} (ha : Valid a) (hb : Valid b) (hc : Valid c)
    (h1 : ltb cmp b a = false) (h2 : ltb cmp c b = false) : ltb cmp c a = false := by
  obtain ⟨x, hx, hx'⟩ := H.cases_cmp ha hb
  obtain ⟨y, hy, hy'⟩ := H.cases_cmp hb hc
  obtain ⟨z, hz, hz'⟩ := H.cases_cmp ha hc
  have := H.trans a b c x y z ha hb hc hx hy hz
  rcases hx' with hx' | hx' | hx' <;> rcases hy' with hy' | hy' | hy' <;>
    rcases hz' with hz' | hz' | hz' <;> simp_all <;> omega

theorem ltb_trans {a b c : K} (ha : Valid a) (hb : Valid b) (hc : Valid c)
    (h1 : ltb cmp a b = true) (h2 : ltb cmp b c = true) : ltb cmp a c = true := by
  cases h : ltb cmp a c
  · have := H.nlt_trans (c := b) hc ha hb h (H.ltb_asymm ha hb h1)
    simp_all
  · rfl

/-- `a ≤ b < c` -/
theorem nlt_lt_trans {a b c : K} (ha : Valid a) (hb : Valid b) (hc : Valid c)
    (h1 : ltb cmp b a = false) (h2 : ltb cmp b c = true) : ltb cmp a c = true := by
  cases h : ltb cmp a c
  · have := H.nlt_trans (a := c) (b := a) (c := b) hc ha hb h h1
    simp_all
  · rfl

/-- `a < b ≤ c` -/
theorem lt_nlt_trans {a b c : K} (ha : Valid a) (hb : Valid b) (hc : Valid c)
    (h1 : ltb cmp a b = true) (h2 : ltb cmp c b = false) : ltb cmp a c = true := by
  cases h : ltb cmp a c
  · have := H.nlt_trans (a := b) (b := c) (c := a) hb hc ha h2 h
    simp_all
  · rfl

theorem eqb_false_of_lt {a b : K} (ha : Valid a) (hb : Valid b) (h : ltb cmp a b = true) :
    eqb cmp a b = false := by
  rw [H.eqb_eq_lt ha hb]; simp [h]

theorem eqb_false_of_gt {a b : K} (ha : Valid a) (hb : Valid b) (h : ltb cmp b a = true) :
    eqb cmp a b = false := by
  rw [H.eqb_eq_lt ha hb]; simp [h]

theorem not_valid_of_error {a b : K} {e : Err} (hb : Valid b) (h : cmp a b = .error e) :
    ¬ Valid a := by
  intro ha
  obtain ⟨c, hc⟩ := H.total a b ha hb
  simp_all

theorem error_of_not_valid {a b : K} (ha : ¬ Valid a) : ∃ e, cmp a b = .error e :=
  H.rejects a b (fun h => ha h.1)

end Lawful

/-- All keys of a list are valid. -/
def AllValid (Valid : K → Prop) (l : List (K × V)) : Prop := ∀ p ∈ l, Valid p.1

@[simp] theorem AllValid_nil : AllValid Valid ([] : List (K × V)) := by simp [AllValid]
@[simp] theorem AllValid_cons {p : K × V} {l} :
    AllValid Valid (p :: l) ↔ Valid p.1 ∧ AllValid Valid l := by simp [AllValid]
@[simp] theorem AllValid_append {l₁ l₂ : List (K × V)} :
    AllValid Valid (l₁ ++ l₂) ↔ AllValid Valid l₁ ∧ AllValid Valid l₂ := by
  simp [AllValid, or_imp, forall_and]

/-- every key of `l` is below `k` -/
def AllLt (cmp : Compare K) (l : List (K × V)) (k : K) : Prop := ∀ p ∈ l, ltb cmp p.1 k = true
/-- every key of `l` is above `k` -/
def AllGt (cmp : Compare K) (k : K) (l : List (K × V)) : Prop := ∀ p ∈ l, ltb cmp k p.1 = true

theorem sorted_mid {l₁ l₂ : List (K × V)} {p : K × V} :
    Spec.Sorted cmp (l₁ ++ p :: l₂) ↔
      Spec.Sorted cmp l₁ ∧ Spec.Sorted cmp l₂ ∧ AllLt cmp l₁ p.1 ∧ AllGt cmp p.1 l₂ ∧
      (∀ a ∈ l₁, ∀ b ∈ l₂, ltb cmp a.1 b.1 = true) := by
  simp only [Spec.Sorted, List.pairwise_append, List.pairwise_cons, AllLt, AllGt,
    List.mem_cons]
  constructor
  · rintro ⟨h1, ⟨h2, h3⟩, h4⟩
    exact ⟨h1, h3, fun a ha => h4 a ha p (Or.inl rfl), h2, fun a ha b hb => h4 a ha b (Or.inr hb)⟩
  · rintro ⟨h1, h2, h3, h4, h5⟩
    refine ⟨h1, ⟨h4, h2⟩, ?_⟩
    rintro a ha b (rfl | hb)
    · exact h3 a ha
    · exact h5 a ha b hb

section
variable (H : Lawful cmp Valid)
include H

theorem AllLt.trans' {l : List (K × V)} {a b : K} (hl : AllValid Valid l) (ha : Valid a)
    (hb : Valid b) (h : AllLt cmp l a) (hab : ltb cmp b a = false) : AllLt cmp l b :=
  fun p hp => H.lt_nlt_trans (hl p hp) ha hb (h p hp) hab

theorem AllGt.trans' {l : List (K × V)} {a b : K} (hl : AllValid Valid l) (ha : Valid a)
    (hb : Valid b) (h : AllGt cmp a l) (hab : ltb cmp a b = false) : AllGt cmp b l :=
  fun p hp => H.nlt_lt_trans hb ha (hl p hp) hab (h p hp)

theorem filter_ne_of_allLt {l : List (K × V)} {k : K} (hl : AllValid Valid l) (hk : Valid k)
    (h : AllLt cmp l k) : l.filter (fun p => !eqb cmp k p.1) = l := by
  rw [List.filter_eq_self]
  intro p hp
  simp [H.eqb_false_of_gt hk (hl p hp) (h p hp)]

theorem filter_ne_of_allGt {l : List (K × V)} {k : K} (hl : AllValid Valid l) (hk : Valid k)
    (h : AllGt cmp k l) : l.filter (fun p => !eqb cmp k p.1) = l := by
  rw [List.filter_eq_self]
  intro p hp
  simp [H.eqb_false_of_lt hk (hl p hp) (h p hp)]

theorem not_eqb_of_allLt {l : List (K × V)} {k : K} (hl : AllValid Valid l) (hk : Valid k)
    (h : AllLt cmp l k) : ∀ p ∈ l, eqb cmp k p.1 = false :=
  fun p hp => H.eqb_false_of_gt hk (hl p hp) (h p hp)

theorem not_eqb_of_allGt {l : List (K × V)} {k : K} (hl : AllValid Valid l) (hk : Valid k)
    (h : AllGt cmp k l) : ∀ p ∈ l, eqb cmp k p.1 = false :=
  fun p hp => H.eqb_false_of_lt hk (hl p hp) (h p hp)

end

theorem find_none_iff {l : List (K × V)} {k : K} :
    Spec.has cmp k l = false ↔ ∀ p ∈ l, eqb cmp k p.1 = false := by
  simp [Spec.has, Spec.find, Option.isSome_eq_false_iff]

theorem has_iff {l : List (K × V)} {k : K} :
    Spec.has cmp k l = true ↔ ∃ p ∈ l, eqb cmp k p.1 = true := by
  simp [Spec.has, Spec.find, List.find?_isSome]

section mid
open Spec
variable (H : Lawful cmp Valid) {l₁ l₂ : List (K × V)} {p : K × V} {k : K}
  (hv : AllValid Valid (l₁ ++ p :: l₂)) (hs : Sorted cmp (l₁ ++ p :: l₂)) (hk : Valid k)
include H hv hs hk

theorem allGt_of_lt (h : ltb cmp k p.1 = true) : AllGt cmp k l₂ := by
  rw [sorted_mid] at hs
  simp at hv
  exact AllGt.trans' H hv.2.2 hv.2.1 hk hs.2.2.2.1 (H.ltb_asymm hk hv.2.1 h)

theorem allLt_of_gt (h : ltb cmp p.1 k = true) : AllLt cmp l₁ k := by
  rw [sorted_mid] at hs
  simp at hv
  exact AllLt.trans' H hv.1 hv.2.1 hk hs.2.2.1 (H.ltb_asymm hv.2.1 hk h)

theorem allLt_of_eq (h : ltb cmp k p.1 = false) : AllLt cmp l₁ k := by
  rw [sorted_mid] at hs
  simp at hv
  exact AllLt.trans' H hv.1 hv.2.1 hk hs.2.2.1 h

theorem allGt_of_eq (h : ltb cmp p.1 k = false) : AllGt cmp k l₂ := by
  rw [sorted_mid] at hs
  simp at hv
  exact AllGt.trans' H hv.2.2 hv.2.1 hk hs.2.2.2.1 h
end mid

open Spec in
theorem below_append {l₁ l₂ : List (K × V)} {k : K} :
    below cmp k (l₁ ++ l₂) = below cmp k l₁ ++ below cmp k l₂ := by simp [below]
open Spec in
theorem above_append {l₁ l₂ : List (K × V)} {k : K} :
    above cmp k (l₁ ++ l₂) = above cmp k l₁ ++ above cmp k l₂ := by simp [above]
open Spec in
theorem below_cons_of {l : List (K × V)} {p : K × V} {k : K} (h : ltb cmp p.1 k = true) :
    below cmp k (p :: l) = p :: below cmp k l := by simp [below, h]
open Spec in
theorem below_cons_of_not {l : List (K × V)} {p : K × V} {k : K} (h : ltb cmp p.1 k = false) :
    below cmp k (p :: l) = below cmp k l := by simp [below, h]
open Spec in
theorem above_cons_of {l : List (K × V)} {p : K × V} {k : K} (h : ltb cmp k p.1 = true) :
    above cmp k (p :: l) = p :: above cmp k l := by simp [above, h]
open Spec in
theorem above_cons_of_not {l : List (K × V)} {p : K × V} {k : K} (h : ltb cmp k p.1 = false) :
    above cmp k (p :: l) = above cmp k l := by simp [above, h]
open Spec in
theorem below_eq_self {l : List (K × V)} {k : K} (h : AllLt cmp l k) : below cmp k l = l := by
  rw [below, List.filter_eq_self]; exact h
open Spec in
theorem above_eq_self {l : List (K × V)} {k : K} (h : AllGt cmp k l) : above cmp k l = l := by
  rw [above, List.filter_eq_self]; exact h

section
variable (H : Lawful cmp Valid)
include H
open Spec
theorem below_eq_nil {l : List (K × V)} {k : K} (hl : AllValid Valid l) (hk : Valid k)
    (h : AllGt cmp k l) : below cmp k l = [] := by
  rw [below, List.filter_eq_nil_iff]
  intro p hp; simp [H.ltb_asymm hk (hl p hp) (h p hp)]

theorem above_eq_nil {l : List (K × V)} {k : K} (hl : AllValid Valid l) (hk : Valid k)
    (h : AllLt cmp l k) : above cmp k l = [] := by
  rw [above, List.filter_eq_nil_iff]
  intro p hp; simp [H.ltb_asymm (hl p hp) hk (h p hp)]

/-- Where a key goes relative to the middle of a sorted list. -/
theorem mid_lt {l₁ l₂ : List (K × V)} {p : K × V} {k : K}
    (hv : AllValid Valid (l₁ ++ p :: l₂)) (hs : Sorted cmp (l₁ ++ p :: l₂)) (hk : Valid k)
    (h : ltb cmp k p.1 = true) :
    below cmp k (l₁ ++ p :: l₂) = below cmp k l₁ ∧
    above cmp k (l₁ ++ p :: l₂) = above cmp k l₁ ++ p :: l₂ ∧
    find cmp k (l₁ ++ p :: l₂) = find cmp k l₁ ∧
    (l₁ ++ p :: l₂).filter (fun q => !eqb cmp k q.1) =
      l₁.filter (fun q => !eqb cmp k q.1) ++ p :: l₂ := by
  have hgt := allGt_of_lt H hv hs hk h
  simp only [AllValid_append, AllValid_cons] at hv
  have hn := H.ltb_asymm hk hv.2.1 h
  have he := H.eqb_false_of_lt hk hv.2.1 h
  refine ⟨?_, ?_, ?_, ?_⟩
  · rw [below_append, below_cons_of_not hn, below_eq_nil H hv.2.2 hk hgt, List.append_nil]
  · rw [above_append, above_cons_of h, above_eq_self hgt]
  · have : List.find? (fun q => eqb cmp k q.1) (p :: l₂) = none := by
      simp only [List.find?_eq_none, List.mem_cons]
      rintro q (rfl | hq)
      · simp [he]
      · simp [not_eqb_of_allGt H hv.2.2 hk hgt q hq]
    simp only [find, List.find?_append, this, Option.or_none]
  · rw [List.filter_append, List.filter_cons_of_pos (by simp [he]),
      filter_ne_of_allGt H hv.2.2 hk hgt]

theorem mid_gt {l₁ l₂ : List (K × V)} {p : K × V} {k : K}
    (hv : AllValid Valid (l₁ ++ p :: l₂)) (hs : Sorted cmp (l₁ ++ p :: l₂)) (hk : Valid k)
    (h : ltb cmp p.1 k = true) :
    below cmp k (l₁ ++ p :: l₂) = l₁ ++ p :: below cmp k l₂ ∧
    above cmp k (l₁ ++ p :: l₂) = above cmp k l₂ ∧
    find cmp k (l₁ ++ p :: l₂) = find cmp k l₂ ∧
    (l₁ ++ p :: l₂).filter (fun q => !eqb cmp k q.1) =
      l₁ ++ p :: l₂.filter (fun q => !eqb cmp k q.1) := by
  have hlt := allLt_of_gt H hv hs hk h
  simp only [AllValid_append, AllValid_cons] at hv
  have hn := H.ltb_asymm hv.2.1 hk h
  have he := H.eqb_false_of_gt hk hv.2.1 h
  refine ⟨?_, ?_, ?_, ?_⟩
  · rw [below_append, below_cons_of h, below_eq_self hlt]
  · rw [above_append, above_cons_of_not hn, above_eq_nil H hv.1 hk hlt, List.nil_append]
  · have : List.find? (fun q => eqb cmp k q.1) l₁ = none := by
      simp only [List.find?_eq_none]
      intro q hq
      simp [not_eqb_of_allLt H hv.1 hk hlt q hq]
    simp only [find, List.find?_append, this, Option.none_or, List.find?_cons, he]
  · rw [List.filter_append, List.filter_cons_of_pos (by simp [he]),
      filter_ne_of_allLt H hv.1 hk hlt]

theorem mid_eq {l₁ l₂ : List (K × V)} {p : K × V} {k : K}
    (hv : AllValid Valid (l₁ ++ p :: l₂)) (hs : Sorted cmp (l₁ ++ p :: l₂)) (hk : Valid k)
    (h : eqb cmp k p.1 = true) :
    below cmp k (l₁ ++ p :: l₂) = l₁ ∧
    above cmp k (l₁ ++ p :: l₂) = l₂ ∧
    find cmp k (l₁ ++ p :: l₂) = some p ∧
    (l₁ ++ p :: l₂).filter (fun q => !eqb cmp k q.1) = l₁ ++ l₂ ∧
    (∀ q ∈ l₁, eqb cmp k q.1 = false) ∧ (∀ q ∈ l₂, eqb cmp k q.1 = false) := by
  have hp : Valid p.1 := hv p (by simp)
  have hlt := allLt_of_eq H hv hs hk (by rw [H.eqb_eq_lt hk hp] at h; simp_all)
  have hgt := allGt_of_eq H hv hs hk (by rw [H.eqb_eq_lt hk hp] at h; simp_all)
  simp only [AllValid_append, AllValid_cons] at hv
  have h' := H.eqb_eq_lt hk hp
  rw [h] at h'
  simp only [Bool.true_eq, Bool.and_eq_true, Bool.not_eq_true'] at h'
  refine ⟨?_, ?_, ?_, ?_, ?_⟩
  · rw [below_append, below_cons_of_not h'.2, below_eq_self hlt, below_eq_nil H hv.2.2 hk hgt,
      List.append_nil]
  · rw [above_append, above_cons_of_not h'.1, above_eq_nil H hv.1 hk hlt, above_eq_self hgt,
      List.nil_append]
  · have : List.find? (fun q => eqb cmp k q.1) l₁ = none := by
      simp only [List.find?_eq_none]
      intro q hq
      simp [not_eqb_of_allLt H hv.1 hk hlt q hq]
    simp only [find, List.find?_append, this, Option.none_or, List.find?_cons, h]
  · rw [List.filter_append, List.filter_cons_of_neg (by simp [h]),
      filter_ne_of_allLt H hv.1 hk hlt, filter_ne_of_allGt H hv.2.2 hk hgt]
  · exact ⟨not_eqb_of_allLt H hv.1 hk hlt, not_eqb_of_allGt H hv.2.2 hk hgt⟩

end

theorem sorted_left {l₁ l₂ : List (K × V)} {p : K × V}
    (hs : Spec.Sorted cmp (l₁ ++ p :: l₂)) : Spec.Sorted cmp l₁ := (sorted_mid.1 hs).1
theorem sorted_right {l₁ l₂ : List (K × V)} {p : K × V}
    (hs : Spec.Sorted cmp (l₁ ++ p :: l₂)) : Spec.Sorted cmp l₂ := (sorted_mid.1 hs).2.1
theorem valid_left {l₁ l₂ : List (K × V)} {p : K × V}
    (hs : AllValid Valid (l₁ ++ p :: l₂)) : AllValid Valid l₁ := (AllValid_append.1 hs).1
theorem valid_right {l₁ l₂ : List (K × V)} {p : K × V}
    (hs : AllValid Valid (l₁ ++ p :: l₂)) : AllValid Valid l₂ :=
  (AllValid_cons.1 (AllValid_append.1 hs).2).2
theorem valid_mid {l₁ l₂ : List (K × V)} {p : K × V}
    (hs : AllValid Valid (l₁ ++ p :: l₂)) : Valid p.1 :=
  (AllValid_cons.1 (AllValid_append.1 hs).2).1

end SM

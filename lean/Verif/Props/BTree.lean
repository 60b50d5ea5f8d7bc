import Verif.Props.Reach
import Verif.Props.LLRB

/-!
Properties of the B+Tree: C15, C16, C18-C21, C34, C48.

`S` fixes the size of encoded nodes and the parameters of the maps (`Setup`). A history `cs` is a list of calls, each with the
behaviour of the callbacks during it. `S.run fuel w c v` is the result of call `c` in state `w` and the state after it; `S.now fuel cs`
is the state after history `cs`. `Hist S fuel cs` says that the calls of `cs` may be made (maps are opened before use, a key put into an
empty map is valid, ...) and that no deletion failed since the last restart, and that no map is pruned again or discarded after a Prune of it failed. `S.Has fuel w t l` says that GetByIndex and
Len show `l`.
-/

namespace SM.Props

open Spec (Op Ans AgreesE Refused stepE has at? Sorted)
open Api (Step Steps Pre Legal Intact Hurt Sane Wanted AllWanted answersOn opsOn Keeps OwnCall)
open BT

variable {K V : Type} {S : Setup K V} {fuel : Nat} {cs ds : Calls K V} {t : TreeId} {v : Env} {c : Api.Call K V} {l : List (K × V)}

theorem inv_sorted {w : World K V} {s : Api.St K V} {n : Nat} {m : Api.Map K V} (hi : Inv S.cfg n w s) (hs : s.sound = true) (hm : s.maps t = some m) :
    Sorted (S.cfg t).cmp m.items ∧ ∀ p ∈ m.items, (S.cfg t).Valid p.1 := by
  obtain ⟨L, LK, h⟩ := hi.shows hs
  obtain ⟨e, he, rfl⟩ := h.only t m hm
  obtain ⟨m', h1, h2⟩ := h.rep e he
  rw [hm, Option.some.injEq] at h1
  subst h1
  have := (h.scene.ok e he).ord.flat
  rw [h.cfg e he] at this
  rw [h2.items]
  exact this

/-- Calls on one map alone, from its creation: they may be made, and nothing is hurt. -/
theorem hist_mild {v0 : Env} (hk : ∀ x ∈ cs, OwnCall (S.api t) t x.1 ∧ Api.Mild x.2.faults x.1) (hf : ∀ t, (S.cfg t).max + ((.new t, v0) :: cs : Calls K V).length + 2 < fuel) :
    Hist S fuel ((.new t, v0) :: cs) := by
  have hk' : ∀ w, ∀ x ∈ S.trace fuel w cs, OwnCall (S.api t) t x.1 ∧ Api.Mild x.2.1 x.1 := by
    intro w x hx
    obtain ⟨a, c, v, b, rfl, rfl⟩ := mem_trace hx
    exact hk (c, v) (by simp)
  have hl : Legal S.api Api.init (S.trace fuel start ((.new t, v0) :: cs)) := by
    rw [trace_cons]
    refine ⟨by simp [Pre, Api.init], fun s' h => ?_⟩
    have h2 := h.2
    simp only [Api.init, if_true] at h2
    obtain ⟨-, -, rfl⟩ := h2
    exact Api.legal_mild (t := t) rfl (Api.set_same _ _ _) rfl (hk' _)
  obtain ⟨s, hs⟩ := exists_at hf hl
  refine ⟨hf, hl, Intact.of_noHurt (hs.steps.mild rfl fun x hx => ?_)⟩
  rw [trace_cons, List.mem_cons] at hx
  rcases hx with rfl | hx
  · trivial
  · exact (hk' _ x hx).2

theorem hist_own {v0 : Env} (hk : ∀ x ∈ cs, OwnCall (S.api t) t x.1 ∧ x.2.Works) (hf : ∀ t, (S.cfg t).max + ((.new t, v0) :: cs : Calls K V).length + 2 < fuel) :
    Hist S fuel ((.new t, v0) :: cs) :=
  hist_mild (fun x hx => ⟨(hk x hx).1, .of_noFault (hk x hx).2.no⟩) hf

/-! A concrete setup: numbers below 1000 as keys, maxKeysPerNode 4, maps sharing a cache. Map 0 is filled until it has three levels,
flushed, purged, read, changed again, pruned. -/

/-- maps with maxKeysPerNode 4 -/
def sampleSetup : Setup Nat Nat where
  size d := 20 + d.items
  cfg t := { cmp := Sample.cmp, Valid := Sample.Valid, law := Sample.lawful, τ := t, ca := true, max := 4, four := by omega, even := by omega }
  named _ := rfl

/-- PutNode stores node after node. -/
def sampleEnv : Env := { calmEnv with putLoc := fun n => some (7, 100 * n) }

theorem sampleEnv_works : sampleEnv.Works := calmEnv_works

/-- calls on map 0 -/
def treeCalls : List (Api.Call Nat Nat) :=
  (List.range 20).map (fun k => .op 0 (.put (10 * k) k)) ++
  [.flush 0 false, .purge 0 true, .op 0 (.getByKey 50), .evict (0, 3), .op 0 (.deleteByIndex 2), .touch 0, .flush 0 true, .prune 0, .op 0 (.bisectLeft 55),
   .op 0 (.patchByIndex 3 77), .op 0 (.getByKey 5000), .touchItem 0 4, .op 0 .validate, .layout 0, .dimensions 0, .limits 2 5]

/-- They are calls on map 0 alone, with valid keys. -/
theorem treeCalls_own : ∀ x ∈ treeCalls.map (fun c => (c, sampleEnv)), OwnCall (sampleSetup.api 0) 0 x.1 ∧ x.2.Works := by
  intro x hx
  obtain ⟨c, hc, rfl⟩ := List.mem_map.1 hx
  refine ⟨?_, sampleEnv_works⟩
  simp only [treeCalls, List.mem_append, List.mem_map, List.mem_range] at hc
  rcases hc with ⟨k, hk, rfl⟩ | hc
  · exact ⟨rfl, by show 10 * k < 1000; omega⟩
  · simp only [List.mem_cons, List.not_mem_nil, or_false] at hc
    rcases hc with rfl | rfl | rfl | rfl | rfl | rfl | rfl | rfl | rfl | rfl | rfl | rfl | rfl | rfl | rfl | rfl <;> first | rfl | trivial

/-- The history of map 0. -/
def treeHist : Calls Nat Nat := (.new 0, calmEnv) :: treeCalls.map (fun c => (c, sampleEnv))

/-- It may be followed by further calls on map 0: the hypotheses of the theorems about histories can be met. -/
theorem treeHist_then {ds : Calls Nat Nat} (hd : ∀ x ∈ ds, OwnCall (sampleSetup.api 0) 0 x.1 ∧ Api.Mild x.2.faults x.1) (hl : ds.length ≤ 10) : Hist sampleSetup 60 (treeHist ++ ds) := by
  refine hist_mild (cs := treeCalls.map (fun c => (c, sampleEnv)) ++ ds) (fun x hx => ?_) (fun t => ?_)
  · rcases List.mem_append.1 hx with hx | hx
    exacts [⟨(treeCalls_own x hx).1, .of_noFault (treeCalls_own x hx).2.no⟩, hd x hx]
  · simp only [sampleSetup, treeCalls, List.length_cons, List.length_map, List.length_append, List.length_range, List.length_nil]; omega

theorem treeHist_clear : sampleSetup.Clear 60 treeHist 0 := by
  refine (treeHist_then (ds := []) nofun (by simp)).clear fun x hx => ?_
  rw [List.append_nil] at hx
  rcases List.mem_cons.1 hx with rfl | hx
  · trivial
  · exact .of_noFault (treeCalls_own x hx).2.no

theorem treeHist_call {c : Api.Call Nat Nat} (hc : OwnCall (sampleSetup.api 0) 0 c) : Hist sampleSetup 60 (treeHist ++ [(c, sampleEnv)]) :=
  treeHist_then (by simp only [List.mem_singleton, forall_eq]; exact ⟨hc, .of_noFault sampleEnv_works.no⟩) (by simp)

/-- C15: a map, alone, from its creation: whatever SortedMap operations, Flush, Purge, Touch, TouchItem, Prune, reports, evictions and
changes of the cache limits are called in whatever order, the SortedMap operations answer as on a sorted list. Only PutNode may fail. -/
theorem C15_btree_refines_sorted_list {v0 : Env} (hk : ∀ x ∈ cs, OwnCall (S.api t) t x.1 ∧ x.2.Works)
    (hf : ∀ t, (S.cfg t).max + ((.new t, v0) :: cs : Calls K V).length + 2 < fuel) :
    AllWanted (S.cfg t).cmp (answersOn t (S.trace fuel start ((.new t, v0) :: cs))) (Spec.run (S.cfg t).cmp [] (opsOn t (cs.map Prod.fst))).1 := by
  have h := hist_own hk hf
  have hl := h.legal
  rw [trace_cons] at hl ⊢
  obtain ⟨s', h1, h2⟩ := (Inv.start (cfg := S.cfg) (n := 0)).step (S := S) (fuel := fuel) (v := v0) (c := .new t) (fun t => by have := hf t; simp at this; omega) hl.1
  have hm := Api.set_same (K := K) (V := V) Api.init t (some ⟨[], 0, 0, none, 0⟩)
  have hs' := h1.2
  simp only [Api.init, if_true] at hs'
  obtain ⟨-, -, rfl⟩ := hs'
  rw [← trace_calls (S := S) (fuel := fuel) (w := (S.run fuel start (.new t) v0).2)]
  exact Api.Meets.sorted (h2.meets S.size S.named cs (fun t => by have := hf t; simp only [List.length_cons] at this; omega)) (hl.2 _ h1) rfl hm
    (fun x hx => by
      obtain ⟨a, c, v, b, rfl, rfl⟩ := mem_trace hx
      have := hk (c, v) (by simp)
      exact ⟨this.1.keeps, this.2.no⟩)

example := C15_btree_refines_sorted_list (S := sampleSetup) (fuel := 60) (t := 0) (v0 := calmEnv) treeCalls_own (by simp [sampleSetup, treeCalls])

/-- C15, one operation after any history, whatever other maps share the cache: answer and contents are those of the sorted list. -/
theorem C15_btree_operation {op : Op K V} (h : Hist S fuel (cs ++ [(.op t op, v)])) (hv : v.CanRead) :
    ∃ l, S.Has fuel (S.now fuel cs) t l ∧ Sorted (S.cfg t).cmp l ∧ (∀ p ∈ l, (S.cfg t).Valid p.1) ∧
      Wanted (S.cfg t).cmp op (S.run fuel (S.now fuel cs) (.op t op) v).1 (stepE (S.cfg t).cmp l op).1 ∧
      S.Has fuel (S.now fuel (cs ++ [(.op t op, v)])) t (stepE (S.cfg t).cmp l op).2 := by
  obtain ⟨h0, s, s', m, h1, h2, h3, h4, h5, h6, h7⟩ := h.call rfl
  obtain ⟨k1, k2⟩ := inv_sorted h1.inv h2 h3
  refine ⟨m.items, h4, k1, k2, ?_⟩
  obtain ⟨-, ⟨k1, ⟨k2, rfl⟩ | ⟨-, m', k2, rfl⟩⟩ | ⟨e, -, k1, -⟩ | ⟨e, k1, -⟩⟩ := h5
  · exact ⟨k1, by rw [show (stepE (S.cfg t).cmp m.items op).2 = m.items from k2]; exact h6.has h.enough h7 h3⟩
  · exact ⟨k1, k2.items ▸ h6.has h.enough h7 (Api.set_same _ _ _)⟩
  · exact absurd k1 hv.no.not
  · exact absurd k1 hv.no.not

example := C15_btree_operation (treeHist_call (c := .op 0 (.deleteByKey 120)) rfl) sampleEnv_works.1

/-- C16: no call panics or fails to end after any history in which no deletion failed, and none reports a logic error, except
Purge(true) when there is something that has not been flushed. (The compare function may return whatever error it likes.) -/
theorem C16_btree_never_panics_partial (h : Hist S fuel cs) (hl : Legal S.api Api.init (S.trace fuel start (cs ++ [(c, v)]))) :
    (S.run fuel (S.now fuel cs) c v).1 ≠ .fatal ∧
    ∀ n, ((S.run fuel (S.now fuel cs) c v).1 = .err (.logic n) ∨ ∃ a, (S.run fuel (S.now fuel cs) c v).1 = .ok (.ans (a, some (.logic n)))) →
      (∃ t, c = .purge t true ∧ ∀ v', (S.run fuel (S.now fuel cs) (.location t) v').1 = .ok (.loc .zero)) ∨
      ∃ t op, c = .op t op ∧ Refused (S.cfg t).cmp op (.logic n) := by
  obtain ⟨s, h1, h2⟩ := h.at
  have hp := legal_one hl h1
  obtain ⟨s', h3, -⟩ := h1.inv.step (fuel := fuel) (v := v) (c := c) h.enough hp
  have hrd : ∀ n, ¬v.faults.reading (.logic n) := by rintro n (⟨h, -⟩ | ⟨h, -⟩) <;> cases h
  show (S.see fuel (S.now fuel cs) c v).out ≠ .fatal ∧
    ∀ n, ((S.see fuel (S.now fuel cs) c v).out = .err (.logic n) ∨ ∃ a, (S.see fuel (S.now fuel cs) c v).out = .ok (.ans (a, some (.logic n)))) → _
  generalize S.see fuel (S.now fuel cs) c v = o at h3
  rcases h3.cases h2 with ⟨t, m, k1, k2, k3⟩ | ⟨t, -, -, k1, -⟩ | ⟨t, r, sn, -, -, -, ⟨k1, -⟩ | ⟨e, k1, k2, -⟩⟩ | ⟨-, -, k1, -⟩ | ⟨-, -, k1, -⟩
  rotate_left
  · rw [k1]; simp
  · rw [k1]; simp
  · rw [k1]
    refine ⟨by simp, ?_⟩
    rintro n (hn | ⟨a, hn⟩) <;> simp only [Out.err.injEq, reduceCtorEq] at hn
    subst hn
    exact absurd k2 (hrd n)
  · rw [k1]; simp
  · rw [k1]; simp
  have rderr : ∀ {e}, o.out = .err e → v.faults.reading e → o.out ≠ .fatal ∧ ∀ n, (o.out = .err (.logic n) ∨ ∃ a, o.out = .ok (.ans (a, some (.logic n)))) →
      (∃ t, c = .purge t true ∧ ∀ v', (S.run fuel (S.now fuel cs) (.location t) v').1 = .ok (.loc .zero)) ∨ ∃ t op, c = .op t op ∧ Refused (S.cfg t).cmp op (.logic n) := by
    intro e he hr
    rw [he]
    refine ⟨by simp, ?_⟩
    rintro n (hn | ⟨a, hn⟩) <;> simp only [Out.err.injEq, reduceCtorEq] at hn
    subst hn
    exact absurd hr (hrd n)
  cases c with
  | op t' op =>
    simp only [Api.Call.on, Option.some.injEq] at k1
    subst k1
    obtain ⟨-, ⟨⟨⟨a, e⟩, k4, k5⟩ | ⟨e, k4, -, k5⟩, -⟩ | ⟨e, k4, k5, -⟩ | ⟨e, k4, ⟨k5, -⟩ | ⟨k5, -⟩, -⟩⟩ := k3
    · rw [k4]
      refine ⟨by simp, ?_⟩
      rintro n (hn | ⟨a, hn⟩) <;> simp only [Out.ok.injEq, Api.Reply.ans.injEq, Prod.mk.injEq, reduceCtorEq] at hn
      obtain ⟨rfl, rfl⟩ := hn
      refine .inr ⟨t', op, rfl, ?_⟩
      cases hst : (stepE (S.cfg t').cmp m.items op).1 with
      | none => rw [show (stepE (S.api t').cmp m.items op).1 = none from hst] at k5; exact k5
      | some b => rw [show (stepE (S.api t').cmp m.items op).1 = some b from hst] at k5; exact k5.elim
    · rw [k4]
      refine ⟨by simp, ?_⟩
      rintro n (hn | ⟨a, hn⟩) <;> simp only [Out.err.injEq, reduceCtorEq] at hn
      subst hn
      exact .inr ⟨t', op, rfl, k5⟩
    · exact rderr k4 k5
    · exact rderr k5 k4
    · rw [k5]
      refine ⟨by simp, ?_⟩
      rintro n (hn | ⟨a, hn⟩) <;> simp only [Out.ok.injEq, Api.Reply.ans.injEq, Prod.mk.injEq, Option.some.injEq, reduceCtorEq] at hn
      rw [hn.2] at k4
      exact absurd k4 (hrd n)
  | flush _ b => obtain ⟨-, -, new, ⟨r, k4, -⟩ | ⟨⟨k4, -⟩ | ⟨k4, -⟩, -⟩⟩ := k3 <;> rw [k4] <;> simp
  | purge t' b =>
    simp only [Api.Call.on, Option.some.injEq] at k1
    subst k1
    obtain ⟨-, -, ⟨-, k4⟩ | ⟨⟨rfl, k5⟩, n, k4⟩⟩ := k3
    · rw [k4]; simp
    · rw [k4]
      refine ⟨by simp, fun _ _ => .inl ⟨t', rfl, fun v' => ?_⟩⟩
      obtain ⟨s2, q1, -⟩ := h1.inv.step (fuel := fuel) (v := v') (c := .location t') h.enough (by simp only [Pre, h2, if_true]; exact ⟨m, k2⟩)
      have := (q1.on h2 rfl k2).2.1
      rw [k5] at this
      exact this
  | touch _ =>
    obtain ⟨-, ⟨k4, -⟩ | ⟨e, k4, k5, -⟩⟩ := k3
    · rw [k4]; simp
    · exact rderr k4 k5
  | touchItem _ i =>
    obtain ⟨-, ⟨-, k4, -⟩ | ⟨n, -, -, k4, -⟩ | ⟨e, k4, k5, -⟩⟩ := k3
    · rw [k4]; simp
    · rw [k4]; simp
    · exact rderr k4 k5
  | prune _ => obtain ⟨-, ⟨k4, -⟩ | ⟨k4, -⟩⟩ := k3 <;> rw [k4] <;> simp
  | discard _ => rw [k3.2.1]; simp
  | layout _ =>
    obtain ⟨-, -, k4 | ⟨e, k4, k5⟩⟩ := k3
    · rw [k4]; simp
    · exact rderr k4 k5
  | dimensions _ =>
    obtain ⟨-, -, ⟨_, k4, -⟩ | ⟨e, k4, k5⟩⟩ := k3
    · rw [k4]; simp
    · exact rderr k4 k5
  | dump _ _ =>
    obtain ⟨-, -, d, k4, -⟩ := k3
    rw [k4]; simp
  | location _ => rw [k3.2.1]; simp
  | new _ => exact k3.elim
  | old _ _ => exact k3.elim
  | evict _ => exact k3.elim
  | limits _ _ => exact k3.elim
  | restart => exact k3.elim

example := C16_btree_never_panics_partial (by have := treeHist_then (ds := []) (by simp) (by simp); rwa [List.append_nil] at this) (treeHist_call (c := .purge 0 true) rfl).legal

/-- C18: Validate returns nil and changes no contents. -/
theorem C18_btree_validate (h : Hist S fuel (cs ++ [(.op t .validate, v)])) (hv : v.CanRead) :
    (S.run fuel (S.now fuel cs) (.op t .validate) v).1 = .ok (.ans (.unit, none)) ∧
    ∃ l, S.Has fuel (S.now fuel cs) t l ∧ S.Has fuel (S.now fuel (cs ++ [(.op t .validate, v)])) t l := by
  obtain ⟨l, h1, -, -, h2, h3⟩ := C15_btree_operation h hv
  exact ⟨answer_ok h2, l, h1, h3⟩

example := C18_btree_validate (treeHist_call (c := .op 0 .validate) rfl) sampleEnv_works.1

/-! ### Bisect and indices -/

section
variable {cmp : Compare K} {Valid : K → Prop}

theorem not_rejects (H : Lawful cmp Valid) (hv : ∀ p ∈ l, Valid p.1) {key : K} (hk : Valid key) : Spec.rejects cmp key l = false := by
  unfold Spec.rejects
  rw [List.any_eq_false]
  intro p hp
  obtain ⟨c, hc⟩ := H.total key p.1 hk (hv p hp)
  simp [hc]

theorem below_at (H : Lawful cmp Valid) (hs : Sorted cmp l) (hv : ∀ p ∈ l, Valid p.1) {key k : K} {x : V} {i : Int} (hk : Valid key)
    (hi : at? i l = some (k, x)) (he : cmp key k = .ok 0) : has cmp key l = true ∧ ((Spec.below cmp key l).length : Int) = i := by
  obtain ⟨j, rfl, hj, e⟩ := at?_some hi
  have heq : eqb cmp key k = true := by simp [eqb, he]
  have hh : has cmp key l = true := has_iff.2 ⟨(k, x), by rw [← e]; exact List.getElem_mem _, heq⟩
  have hvk : Valid k := by have := hv _ (List.getElem_mem hj); rw [e] at this; exact this
  obtain ⟨c, hc, hlt⟩ := H.cases_cmp hk hvk
  have hnot : ltb cmp key k = false ∧ ltb cmp k key = false := by rcases hlt with h | h | h <;> simp_all
  refine ⟨hh, ?_⟩
  have h1 := below_pos H hv hs hk hj
  rw [e] at h1
  have h2 := below_len_le (cmp := cmp) (k := key) l
  rw [hnot.2] at h1
  by_cases h3 : (Spec.below cmp key l).length < j
  · exfalso
    have h4 : (Spec.below cmp key l).length < l.length := by omega
    have h5 := (below_pos H hv hs hk h4)
    simp only [Nat.lt_irrefl, false_iff] at h5
    have h6 := List.pairwise_iff_getElem.1 hs _ _ h4 hj h3
    rw [e] at h6
    have h7 := hv _ (List.getElem_mem h4)
    have := H.lt_nlt_trans h7 hvk hk h6 hnot.1
    simp_all
  · simp at h1; omega

theorem below_not (H : Lawful cmp Valid) (hs : Sorted cmp l) (hv : ∀ p ∈ l, Valid p.1) {key : K} (hk : Valid key)
    (habs : ∀ p ∈ l, cmp key p.1 ≠ .ok 0) : has cmp key l = false ∧ ∀ (j : Nat) (hj : j < l.length),
      (j < (Spec.below cmp key l).length → ∃ c, cmp (l[j]).1 key = .ok c ∧ c < 0) ∧ ((Spec.below cmp key l).length ≤ j → ∃ c, cmp key (l[j]).1 = .ok c ∧ c < 0) := by
  have hh : has cmp key l = false := by
    rw [Bool.eq_false_iff]
    intro h
    obtain ⟨p, hp, he⟩ := has_iff.1 h
    exact habs p hp (eqb_iff.1 he)
  refine ⟨hh, fun j hj => ?_⟩
  have h1 := below_pos H hv hs hk hj
  have hvk := hv _ (List.getElem_mem hj)
  refine ⟨fun h => ltb_iff.1 (h1.1 h), fun h => ?_⟩
  have h2 : ltb cmp (l[j]).1 key = false := by
    rw [Bool.eq_false_iff]; intro h3; have := h1.2 h3; omega
  have h3 : eqb cmp key (l[j]).1 = false := find_none_iff.1 hh _ (List.getElem_mem hj)
  rw [H.eqb_eq_lt hk hvk, h2] at h3
  simp at h3
  exact ltb_iff.1 h3

end

/-- C19, key present: both bisects answer its index. -/
theorem C19_btree_bisect_present {key : K} (h : Hist S fuel (cs ++ [(.op t (.bisectLeft key), v)])) (hv : v.CanRead) (hk : (S.cfg t).Valid key) :
    ∃ l, S.Has fuel (S.now fuel cs) t l ∧ ∀ (j : Nat) (hj : j < l.length), (S.cfg t).cmp key (l[j]).1 = .ok 0 →
      (S.run fuel (S.now fuel cs) (.op t (.bisectLeft key)) v).1 = .ok (.ans (.index j true, none)) ∧
      (S.run fuel (S.now fuel cs) (.op t (.bisectRight key)) v).1 = .ok (.ans (.index j true, none)) := by
  obtain ⟨h0, s, s', m, h1, h2, h3, h4, -⟩ := h.call rfl
  obtain ⟨k1, k2⟩ := inv_sorted h1.inv h2 h3
  refine ⟨m.items, h4, fun j hj he => ?_⟩
  obtain ⟨q1, q2⟩ := below_at (S.cfg t).law k1 k2 hk (i := j) (k := (m.items[j]).1) (x := (m.items[j]).2)
    (by have : ¬((j : Int) < 0) := by omega
        simp [at?, this, List.getElem?_eq_getElem hj]) he
  have hr := not_rejects (S.cfg t).law k2 hk
  refine ⟨answer_ok (cmp := (S.cfg t).cmp) (op := .bisectLeft key) ?_, answer_ok (cmp := (S.cfg t).cmp) (op := .bisectRight key) ?_⟩
  · have := h1.inv.op (fuel := fuel) (op := .bisectLeft key) h0.enough h2 h3 hv (by simp)
    simpa [stepE, Op.key?, hr, Spec.step, q1, q2] using this
  · have := h1.inv.op (fuel := fuel) (op := .bisectRight key) h0.enough h2 h3 hv (by simp)
    simpa [stepE, Op.key?, hr, Spec.step, q1, q2] using this

example := C19_btree_bisect_present (treeHist_call (c := .op 0 (.bisectLeft 60)) rfl) sampleEnv_works.1 (by show 60 < 1000; omega)

/-- C19, key absent: BisectLeft answers the index of the last smaller item (`-1` if there is none), BisectRight that of the first larger
one (`n` if there is none): every item at or below the left index is smaller, every item at or above the right index larger, and the two
indices are adjacent. -/
theorem C19_btree_bisect_absent {key : K} (h : Hist S fuel (cs ++ [(.op t (.bisectLeft key), v)])) (hv : v.CanRead) (hk : (S.cfg t).Valid key) :
    ∃ l, S.Has fuel (S.now fuel cs) t l ∧ ((∀ p ∈ l, (S.cfg t).cmp key p.1 ≠ .ok 0) → ∃ i : Int,
      (S.run fuel (S.now fuel cs) (.op t (.bisectLeft key)) v).1 = .ok (.ans (.index i false, none)) ∧
      (S.run fuel (S.now fuel cs) (.op t (.bisectRight key)) v).1 = .ok (.ans (.index (i + 1) false, none)) ∧
      -1 ≤ i ∧ i < l.length ∧ ∀ (j : Nat) (hj : j < l.length),
        ((j : Int) ≤ i → ∃ c, (S.cfg t).cmp (l[j]).1 key = .ok c ∧ c < 0) ∧ (i < j → ∃ c, (S.cfg t).cmp key (l[j]).1 = .ok c ∧ c < 0)) := by
  obtain ⟨h0, s, s', m, h1, h2, h3, h4, -⟩ := h.call rfl
  obtain ⟨k1, k2⟩ := inv_sorted h1.inv h2 h3
  refine ⟨m.items, h4, fun habs => ?_⟩
  obtain ⟨q1, q2⟩ := below_not (S.cfg t).law k1 k2 hk habs
  have hr := not_rejects (S.cfg t).law k2 hk
  have hle := below_len_le (cmp := (S.cfg t).cmp) (k := key) m.items
  refine ⟨(Spec.below (S.cfg t).cmp key m.items).length - 1, answer_ok (cmp := (S.cfg t).cmp) (op := .bisectLeft key) ?_, answer_ok (cmp := (S.cfg t).cmp) (op := .bisectRight key) ?_, by omega, by omega, fun j hj => ⟨fun hji => (q2 j hj).1 (by omega), fun hji => (q2 j hj).2 (by omega)⟩⟩
  · have := h1.inv.op (fuel := fuel) (op := .bisectLeft key) h0.enough h2 h3 hv (by simp)
    simpa [stepE, Op.key?, hr, Spec.step, q1] using this
  · have := h1.inv.op (fuel := fuel) (op := .bisectRight key) h0.enough h2 h3 hv (by simp)
    simpa [stepE, Op.key?, hr, Spec.step, q1] using this

example := C19_btree_bisect_absent (treeHist_call (c := .op 0 (.bisectLeft 55)) rfl) sampleEnv_works.1 (by show 55 < 1000; omega)

/-- C20: GetByIndex answers the item at that place of the contents, which are in strictly increasing order; outside `0 .. n-1` it answers
`ok == false`. -/
theorem C20_btree_getByIndex {i : Int} (h : Hist S fuel (cs ++ [(.op t (.getByIndex i), v)])) (hv : v.CanRead) :
    ∃ l, S.Has fuel (S.now fuel cs) t l ∧ S.Has fuel (S.now fuel (cs ++ [(.op t (.getByIndex i), v)])) t l ∧
      (∀ (a b : Nat) (ha : a < l.length) (hb : b < l.length), a < b → ∃ c, (S.cfg t).cmp (l[a]).1 (l[b]).1 = .ok c ∧ c < 0) ∧
      (S.run fuel (S.now fuel cs) (.op t (.getByIndex i)) v).1 = .ok (.ans (.item (if i < 0 then none else l[i.toNat]?), none)) := by
  obtain ⟨l, h1, h2, -, h3, h4⟩ := C15_btree_operation h hv
  exact ⟨l, h1, h4, fun a b ha hb hab => ltb_iff.1 (List.pairwise_iff_getElem.1 h2 a b ha hb hab), answer_ok h3⟩

example := C20_btree_getByIndex (treeHist_call (c := .op 0 (.getByIndex 7)) rfl) sampleEnv_works.1

/-- C20: PatchByIndex replaces the value at that place and nothing else; outside the range it answers `false` and does nothing. -/
theorem C20_btree_patchByIndex {i : Int} {x : V} (h : Hist S fuel (cs ++ [(.op t (.patchByIndex i x), v)])) (hv : v.CanRead) :
    ∃ l l', S.Has fuel (S.now fuel cs) t l ∧ S.Has fuel (S.now fuel (cs ++ [(.op t (.patchByIndex i x), v)])) t l' ∧
      ((0 ≤ i ∧ i < l.length ∧ (S.run fuel (S.now fuel cs) (.op t (.patchByIndex i x)) v).1 = .ok (.ans (.done true, none)) ∧
        l'.length = l.length ∧ ∀ j : Nat, l'[j]? = if (j : Int) = i then l[j]?.map fun p => (p.1, x) else l[j]?) ∨
       (¬(0 ≤ i ∧ i < l.length) ∧ (S.run fuel (S.now fuel cs) (.op t (.patchByIndex i x)) v).1 = .ok (.ans (.done false, none)) ∧ l' = l)) := by
  obtain ⟨l, h1, -, -, h3, h4⟩ := C15_btree_operation h hv
  refine ⟨l, _, h1, h4, ?_⟩
  simp only [stepE, Op.key?, Spec.step] at h3 ⊢
  rw [LLRB.Tree.at?_isSome] at h3 ⊢
  by_cases hi : 0 ≤ i ∧ i < l.length
  · simp only [hi, and_self, decide_true, if_true] at h3 ⊢
    refine .inl ⟨trivial, trivial, answer_ok h3, by simp [Spec.setIndex], fun j => ?_⟩
    obtain ⟨a, rfl⟩ : ∃ a : Nat, i = a := ⟨i.toNat, by omega⟩
    simp only [Spec.setIndex, Int.toNat_natCast, List.getElem?_modify, Int.natCast_inj]
    by_cases hj : a = j
    · simp [hj]
    · simp [hj, Ne.symm hj]
  · simp only [hi, decide_false, Bool.false_eq_true, if_false] at h3 ⊢
    exact .inr ⟨id, answer_ok h3, trivial⟩

example := C20_btree_patchByIndex (treeHist_call (c := .op 0 (.patchByIndex 7 70)) rfl) sampleEnv_works.1

/-- C20: DeleteByIndex removes the item at that place and nothing else; outside the range it answers `false` and does nothing. -/
theorem C20_btree_deleteByIndex {i : Int} (h : Hist S fuel (cs ++ [(.op t (.deleteByIndex i), v)])) (hv : v.CanRead) :
    ∃ l l', S.Has fuel (S.now fuel cs) t l ∧ S.Has fuel (S.now fuel (cs ++ [(.op t (.deleteByIndex i), v)])) t l' ∧
      ((0 ≤ i ∧ i < l.length ∧ (S.run fuel (S.now fuel cs) (.op t (.deleteByIndex i)) v).1 = .ok (.ans (.done true, none)) ∧
        ∀ j : Nat, l'[j]? = if (j : Int) < i then l[j]? else l[j + 1]?) ∨
       (¬(0 ≤ i ∧ i < l.length) ∧ (S.run fuel (S.now fuel cs) (.op t (.deleteByIndex i)) v).1 = .ok (.ans (.done false, none)) ∧ l' = l)) := by
  obtain ⟨l, h1, -, -, h3, h4⟩ := C15_btree_operation h hv
  refine ⟨l, _, h1, h4, ?_⟩
  simp only [stepE, Op.key?, Spec.step] at h3 ⊢
  rw [LLRB.Tree.at?_isSome] at h3 ⊢
  by_cases hi : 0 ≤ i ∧ i < l.length
  · simp only [hi, and_self, decide_true, if_true] at h3 ⊢
    refine .inl ⟨trivial, trivial, answer_ok h3, fun j => ?_⟩
    obtain ⟨a, rfl⟩ : ∃ a : Nat, i = a := ⟨i.toNat, by omega⟩
    simp only [Int.toNat_natCast, List.getElem?_eraseIdx, Int.ofNat_lt]
  · simp only [hi, decide_false, Bool.false_eq_true, if_false] at h3 ⊢
    exact .inr ⟨id, answer_ok h3, trivial⟩

example := C20_btree_deleteByIndex (treeHist_call (c := .op 0 (.deleteByIndex 7)) rfl) sampleEnv_works.1

/-! ### The two implementations -/

/-- What an LLRBTree hands back and what a B+Tree hands back: the same answer, or both an error. -/
def SameAnswer : Ans K V × Option Err → Out (Api.Reply K V) → Prop
  | (a, none), o => o = .ok (.ans (a, none))
  | (_, some _), o => ∃ e, o = .err e ∨ ∃ a, o = .ok (.ans (a, some e))

def SameAnswers : List (Ans K V × Option Err) → List (Op K V × Out (Api.Reply K V)) → Prop
  | [], [] => True
  | a :: as, (_, b) :: bs => SameAnswer a b ∧ SameAnswers as bs
  | _, _ => False

theorem sameAnswers {cmp : Compare K} : ∀ {as : List (Ans K V × Option Err)} {bs : List (Op K V × Out (Api.Reply K V))} {ws : List (Option (Ans K V))},
    Spec.AgreeAll as ws → AllWanted cmp bs ws → SameAnswers as bs
  | [], [], [], _, _ => trivial
  | (a, none) :: as, (o, b) :: bs, some w :: ws, h1, h2 => by
      refine ⟨?_, sameAnswers h1.2 h2.2⟩
      rw [show a = w from h1.1]
      exact answer_ok h2.1
  | (a, some e) :: as, (o, b) :: bs, none :: ws, h1, h2 => by
      refine ⟨?_, sameAnswers h1.2 h2.2⟩
      rcases h2.1 with ⟨⟨a, e⟩, rfl, h⟩ | ⟨e, rfl, -⟩
      · cases e with
        | none => exact h.elim
        | some e => exact ⟨e, .inr ⟨a, rfl⟩⟩
      · exact ⟨e, .inl rfl⟩
  | (a, none) :: as, _, none :: ws, h1, _ => h1.1.elim
  | (a, some e) :: as, _, some w :: ws, h1, _ => h1.1.elim
  | [], _ :: _, [], _, h2 => h2.elim
  | _ :: _, [], _ :: _, _, h2 => h2.elim
  | [], _, _ :: _, h1, _ => h1.elim
  | _ :: _, _, [], h1, _ => h1.elim

/-- C21: any operations give the same answers on an LLRBTree and on a B+Tree, whatever else is called on the B+Tree meanwhile. -/
theorem C21_same_answers {v0 : Env} (hk : ∀ x ∈ cs, OwnCall (S.api t) t x.1 ∧ x.2.Works) (hf : ∀ t, (S.cfg t).max + ((.new t, v0) :: cs : Calls K V).length + 2 < fuel) :
    ∃ rs tree, LLRB.Tree.run (S.cfg t).cmp .nil ((opsOn t (cs.map Prod.fst)).map .op) = some (rs, tree) ∧
      SameAnswers rs (answersOn t (S.trace fuel start ((.new t, v0) :: cs))) := by
  have e : ∀ (ops : List (Op K V)) (l : List (K × V)), (Spec.runC (S.cfg t).cmp l (ops.map .op)).1 = (Spec.run (S.cfg t).cmp l ops).1 := by
    intro ops
    induction ops with
    | nil => intro l; rfl
    | cons o ops ih => intro l; simp only [List.map_cons, Spec.runC, Spec.run, Spec.stepC, ih]
  obtain ⟨rs, tree, h1, h2⟩ := C01_llrb_refines_sorted_list (S.cfg t).law ((opsOn t (cs.map Prod.fst)).map .op) (V := V) (by
    intro c hc k hck
    obtain ⟨o, ho, rfl⟩ := List.mem_map.1 hc
    have : ∀ (L : List (Api.Call K V)), (∀ c ∈ L, OwnCall (S.api t) t c) → ∀ o ∈ opsOn t L, Api.Call.op t o ∈ L := by
      intro L
      induction L with
      | nil => intro _ o ho; cases ho
      | cons c L ih =>
        intro hL o ho
        have ih := ih (fun c hc => hL c (by simp [hc]))
        cases c with
        | op t' o' =>
          simp only [opsOn] at ho
          split at ho
          · next he =>
            subst he
            rcases List.mem_cons.1 ho with rfl | ho
            · simp
            · exact List.mem_cons_of_mem _ (ih o ho)
          · exact List.mem_cons_of_mem _ (ih o ho)
        | _ => exact List.mem_cons_of_mem _ (ih o ho)
    have hm := this (cs.map Prod.fst) (fun c hc => by obtain ⟨x, hx, rfl⟩ := List.mem_map.1 hc; exact (hk x hx).1) o ho
    obtain ⟨x, hx, e⟩ := List.mem_map.1 hm
    have := (hk x hx).1
    rw [e] at this
    cases o <;> simp only [Spec.Call.putKey?, Op.putKey?, Option.some.injEq, reduceCtorEq] at hck
    subst hck
    exact this.2)
  rw [e] at h2
  exact ⟨rs, tree, h1, sameAnswers h2 (C15_btree_refines_sorted_list hk hf)⟩

example := C21_same_answers (S := sampleSetup) (fuel := 60) (t := 0) (v0 := calmEnv) treeCalls_own (by simp [sampleSetup, treeCalls])

/-! ### Errors -/

/-- C48: a keyed operation with a key the compare function rejects, on a non-empty map, returns an error of the compare function and
leaves the contents unchanged. -/
theorem C48_btree_compare_error {op : Op K V} {k : K} (h : Hist S fuel (cs ++ [(.op t op, v)])) (hv : v.CanRead) (hk : op.key? = some k) (hbad : ¬(S.cfg t).Valid k) :
    ∃ l, S.Has fuel (S.now fuel cs) t l ∧ (l ≠ [] →
      (∃ e k', (S.cfg t).cmp k k' = .error e ∧ ((S.run fuel (S.now fuel cs) (.op t op) v).1 = .err e ∨ ∃ a, (S.run fuel (S.now fuel cs) (.op t op) v).1 = .ok (.ans (a, some e)))) ∧
      S.Has fuel (S.now fuel (cs ++ [(.op t op, v)])) t l) := by
  obtain ⟨l, h1, -, -, h3, h4⟩ := C15_btree_operation h hv
  refine ⟨l, h1, fun hne => ?_⟩
  have hr : Spec.rejects (S.cfg t).cmp k l = true := by
    obtain ⟨p, l', rfl⟩ := List.exists_cons_of_ne_nil hne
    obtain ⟨e, he⟩ := (S.cfg t).law.error_of_not_valid (b := p.1) hbad
    simp [Spec.rejects, he]
  simp only [stepE, hk, hr, if_true] at h3 h4
  refine ⟨?_, h4⟩
  rcases h3 with ⟨⟨a, e⟩, q1, q2⟩ | ⟨e, q1, -, k0, q2, k', q3⟩
  · cases e with
    | none => exact q2.elim
    | some e =>
      obtain ⟨k0, q2, k', q3⟩ := q2
      rw [hk, Option.some.injEq] at q2
      subst q2
      exact ⟨e, k', q3, .inr ⟨a, q1⟩⟩
  · rw [hk, Option.some.injEq] at q2
    subst q2
    exact ⟨e, k', q3, .inl q1⟩

example := C48_btree_compare_error (k := 5000) (treeHist_call (c := .op 0 (.deleteByKey 5000)) rfl) sampleEnv_works.1 rfl (by show ¬5000 < 1000; omega)

/-- C34: an operation other than DeleteByKey and DeleteByIndex, with GetNode or the unpacking of nodes failing whenever it likes: it either
has its full effect or returns that error and leaves the contents unchanged; in the latter case it can be retried with full effect. -/
theorem C34_btree_failing_read {op : Op K V} {v' : Env} (h : Hist S fuel ((cs ++ [(.op t op, v)]) ++ [(.op t op, v')])) (hd : ¬Api.isDelete op) (hv' : v'.CanRead) :
    ∃ l, S.Has fuel (S.now fuel cs) t l ∧
      ((Wanted (S.cfg t).cmp op (S.run fuel (S.now fuel cs) (.op t op) v).1 (stepE (S.cfg t).cmp l op).1 ∧
        S.Has fuel (S.now fuel (cs ++ [(.op t op, v)])) t (stepE (S.cfg t).cmp l op).2) ∨
       ((∃ e, (S.run fuel (S.now fuel cs) (.op t op) v).1 = .err e ∧ v.faults.reading e) ∧
        S.Has fuel (S.now fuel (cs ++ [(.op t op, v)])) t l ∧
        Wanted (S.cfg t).cmp op (S.run fuel (S.now fuel (cs ++ [(.op t op, v)])) (.op t op) v').1 (stepE (S.cfg t).cmp l op).1 ∧
        S.Has fuel (S.now fuel ((cs ++ [(.op t op, v)]) ++ [(.op t op, v')])) t (stepE (S.cfg t).cmp l op).2)) := by
  obtain ⟨h', -⟩ := h.last (by simp)
  obtain ⟨l', g1, -, -, g2, g3⟩ := C15_btree_operation h hv'
  obtain ⟨h0, s, s', m, h1, h2, h3, h4, h5, h6, h7⟩ := h'.call rfl
  refine ⟨m.items, h4, ?_⟩
  obtain ⟨-, ⟨k1, ⟨k2, rfl⟩ | ⟨-, m', k2, rfl⟩⟩ | ⟨e, k0, k1, -, rfl⟩ | ⟨e, k1, ⟨-, k2⟩ | ⟨-, k2⟩, -⟩⟩ := h5
  · exact .inl ⟨k1, by rw [show (stepE (S.cfg t).cmp m.items op).2 = m.items from k2]; exact h6.has h'.enough h7 h3⟩
  · exact .inl ⟨k1, k2.items ▸ h6.has h'.enough h7 (Api.set_same _ _ _)⟩
  · have hh := h6.has h'.enough h7 h3
    obtain rfl := g1.unique hh
    exact .inr ⟨⟨e, k0, k1⟩, hh, g2, g3⟩
  · cases op <;> first | exact k2.elim | exact absurd trivial hd
  · exact absurd k2.1 hd

/-- GetNode fails from the second call on. -/
def badEnv : Env := { sampleEnv with getFails := fun n => decide (1 ≤ n) }

example := C34_btree_failing_read (cs := treeHist) (v := badEnv) (v' := sampleEnv) (op := .put 51 51)
  (by rw [List.append_assoc]; exact treeHist_then (ds := [(.op 0 (.put 51 51), badEnv), (.op 0 (.put 51 51), sampleEnv)])
        (by simp only [List.mem_cons, List.not_mem_nil, or_false, forall_eq_or_imp, forall_eq]; exact ⟨⟨⟨rfl, by show 51 < 1000; omega⟩, trivial⟩, ⟨rfl, by show 51 < 1000; omega⟩, trivial⟩) (by simp))
  (fun h => h) sampleEnv_works.1

end SM.Props

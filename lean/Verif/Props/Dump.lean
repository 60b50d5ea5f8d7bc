import Verif.LLRB.Dump
import Verif.Props.LLRB
import Verif.Props.Store

/-! C54: what Dump prints. -/

namespace SM.Props

open Spec

section
open LLRB LLRB.Tree

variable {K V : Type} {cmp : Compare K} {Valid : K → Prop}

/-- The keys printed in flat form. -/
def flatKeys : List (Line K) → List K
  | .flat _ k _ _ _ :: l => k :: flatKeys l
  | _ :: l => flatKeys l
  | [] => []

/-- The keys printed in tree form. -/
def treeKeys : List (Line K) → List K
  | .root k :: l => k :: treeKeys l
  | .tree _ _ (some k) :: l => k :: treeKeys l
  | _ :: l => treeKeys l
  | [] => []

theorem flatKeys_append (a b : List (Line K)) : flatKeys (a ++ b) = flatKeys a ++ flatKeys b := by
  induction a with
  | nil => rfl
  | cons x a ih => cases x <;> simp [flatKeys, ih]

theorem treeKeys_append (a b : List (Line K)) : treeKeys (a ++ b) = treeKeys a ++ treeKeys b := by
  induction a with
  | nil => rfl
  | cons x a ih =>
    cases x with
    | tree i r k => cases k <;> simp [treeKeys, ih]
    | _ => simp [treeKeys, ih]

theorem childFails_mem {bad : K → Bool} {t : Tree K V} (h : childFails bad t = true) : ∃ p ∈ t.toList, bad p.1 = true := by
  cases t with
  | nil => cases h
  | node k v l r c n => exact ⟨(k, v), by simp [toList], h⟩

theorem dumpFlat_spec (bad : K → Bool) (t : Tree K V) :
    ((dumpFlat bad t).2 = none ∨ (dumpFlat bad t).2 = some .codec) ∧ treeKeys (dumpFlat bad t).1 = [] ∧
    ((∀ p ∈ t.toList, bad p.1 = false) ↔ (dumpFlat bad t).2 = none) ∧
    ((dumpFlat bad t).2 = none → (flatKeys (dumpFlat bad t).1).Perm (t.toList.map Prod.fst)) := by
  induction t with
  | nil => simp [dumpFlat, toList, flatKeys, treeKeys]
  | node k v l r c n ihl ihr =>
    obtain ⟨l1, l2, l3, l4⟩ := ihl
    obtain ⟨r1, r2, r3, r4⟩ := ihr
    rw [dumpFlat]
    have fails : (∃ p ∈ (node k v l r c n).toList, bad p.1 = true) →
        ((∀ p ∈ (node k v l r c n).toList, bad p.1 = false) ↔ (some Err.codec : Option Err) = none) := by
      rintro ⟨p, hp, hb⟩
      simp only [reduceCtorEq, iff_false, not_forall]
      exact ⟨p, hp, by simp [hb]⟩
    split
    · rename_i h
      obtain ⟨p, hp, hb⟩ := childFails_mem h
      exact ⟨.inr rfl, rfl, fails ⟨p, by simp [toList, hp], hb⟩, nofun⟩
    split
    · rename_i h
      obtain ⟨p, hp, hb⟩ := childFails_mem h
      exact ⟨.inr rfl, rfl, fails ⟨p, by simp [toList, hp], hb⟩, nofun⟩
    split
    · rename_i h
      exact ⟨.inr rfl, rfl, fails ⟨(k, v), by simp [toList], h⟩, nofun⟩
    rename_i hk
    rcases hl : dumpFlat bad l with ⟨a, _ | e⟩
    · rcases hr : dumpFlat bad r with ⟨b, e⟩
      simp only [hl, hr] at *
      simp only [iff_true] at l3
      refine ⟨r1, ?_, ?_, fun he => ?_⟩
      · simp [treeKeys, treeKeys_append, l2, r2]
      · rw [← r3]
        constructor
        · intro h p hp; exact h p (by simp [toList, hp])
        · intro h p hp
          simp only [toList, List.mem_append, List.mem_cons] at hp
          rcases hp with hp | rfl | hp
          exacts [l3 p hp, by simpa using hk, h p hp]
      · simp only [flatKeys, flatKeys_append, toList, List.map_append, List.map_cons]
        exact ((l4 trivial).append (r4 he)).cons k |>.trans List.perm_middle.symm
    · simp only [hl] at *
      have h1 : ¬∀ p ∈ l.toList, bad p.1 = false := by rw [l3]; simp
      simp only [not_forall] at h1
      obtain ⟨p, hp, hb⟩ := h1
      have : e = .codec := by simpa using l1
      subst this
      exact ⟨.inr rfl, by simp [treeKeys, l2], fails ⟨p, by simp [toList, hp], by simpa using hb⟩, nofun⟩

theorem dumpTreeNode_spec (bad : K → Bool) (t : Tree K V) (hb : ∀ p ∈ t.toList, bad p.1 = false) : ∀ isRight indent,
    (dumpTreeNode bad t isRight indent).2 = none ∧ flatKeys (dumpTreeNode bad t isRight indent).1 = [] ∧
    treeKeys (dumpTreeNode bad t isRight indent).1 = (t.toList.map Prod.fst).reverse := by
  induction t with
  | nil => intros; simp [dumpTreeNode, toList, flatKeys, treeKeys]
  | node k v l r c n ihl ihr =>
    intro s i
    simp only [toList, List.mem_append, List.mem_cons, or_imp, forall_and, forall_eq] at hb
    obtain ⟨h1, h2, h3⟩ := hb
    obtain ⟨a1, a2, a3⟩ := ihr h3 true (i ++ [!s])
    obtain ⟨b1, b2, b3⟩ := ihl h1 false (i ++ [s])
    rw [dumpTreeNode]
    rcases hr : dumpTreeNode bad r true (i ++ [!s]) with ⟨a, e⟩
    rcases hl : dumpTreeNode bad l false (i ++ [s]) with ⟨b, f⟩
    rw [hr] at a1 a2 a3
    rw [hl] at b1 b2 b3
    simp only at a1 a2 a3 b1 b2 b3
    subst a1 b1
    simp [h2, flatKeys, treeKeys, flatKeys_append, treeKeys_append, a2, a3, b2, b3, toList]

theorem dumpTree_spec (bad : K → Bool) (t : Tree K V) (hb : ∀ p ∈ t.toList, bad p.1 = false) :
    (dumpTree bad t).2 = none ∧ flatKeys (dumpTree bad t).1 = [] ∧ treeKeys (dumpTree bad t).1 = (t.toList.map Prod.fst).reverse := by
  cases t with
  | nil => simp [dumpTree, toList, flatKeys, treeKeys]
  | node k v l r c n =>
    simp only [toList, List.mem_append, List.mem_cons, or_imp, forall_and, forall_eq] at hb
    obtain ⟨h1, h2, h3⟩ := hb
    obtain ⟨a1, a2, a3⟩ := dumpTreeNode_spec bad r h3 true []
    obtain ⟨b1, b2, b3⟩ := dumpTreeNode_spec bad l h1 false []
    rw [dumpTree]
    rcases hr : dumpTreeNode bad r true [] with ⟨a, e⟩
    rcases hl : dumpTreeNode bad l false [] with ⟨b, f⟩
    rw [hr] at a1 a2 a3
    rw [hl] at b1 b2 b3
    simp only at a1 a2 a3 b1 b2 b3
    subst a1 b1
    simp [h2, flatKeys, treeKeys, flatKeys_append, treeKeys_append, a2, a3, b2, b3, toList]

/-- What a dump of the items `l` should be: if DumpKey works for the keys, Dump succeeds and prints every key once in its first part and the keys in decreasing
order in its second; if DumpKey fails for one of them, so does Dump. -/
def FullDump (bad : K → Bool) (l : List (K × V)) (d : List (Line K) × Option Err) : Prop :=
  ((∀ p ∈ l, bad p.1 = false) → d.2 = none ∧ (flatKeys d.1).Perm (l.map Prod.fst) ∧ treeKeys d.1 = (l.map Prod.fst).reverse) ∧
  ((∃ p ∈ l, bad p.1 = true) → d.2 = some .codec)

theorem dump_full (bad : K → Bool) (t : Tree K V) : FullDump bad t.toList (dump bad t) := by
  obtain ⟨f1, f2, f3, f4⟩ := dumpFlat_spec bad t
  refine ⟨fun hb => ?_, fun ⟨p, hp, hb⟩ => ?_⟩
  · obtain ⟨g1, g2, g3⟩ := dumpTree_spec bad t hb
    have f5 := f3.1 hb
    have f6 := f4 f5
    rw [dump]
    rcases hf : dumpFlat bad t with ⟨a, e⟩
    rcases hg : dumpTree bad t with ⟨b, f⟩
    rw [hf] at f2 f5 f6
    rw [hg] at g1 g2 g3
    simp only at f2 f5 f6 g1 g2 g3
    subst f5 g1
    simp only [flatKeys_append, treeKeys_append, g2, g3, f2, List.append_nil, List.nil_append]
    exact ⟨trivial, f6, trivial⟩
  · have f5 : (dumpFlat bad t).2 = some .codec := f1.resolve_left fun h => by
      have := f3.2 h p hp
      rw [hb] at this; cases this
    rw [dump]
    rcases hf : dumpFlat bad t with ⟨a, e⟩
    rw [hf] at f5
    simp only at f5
    subst f5
    rfl

/-- **C54.** Dump of an in-memory map, after every history: if DumpKey works for the map's keys, Dump succeeds and prints every key once in its first part and
the keys in decreasing order in its second; if DumpKey fails for one of them, so does Dump. -/
theorem C54_llrb_dump (H : Lawful cmp Valid) (cs : List (Call K V)) (hp : PutsValid Valid cs) :
    ∃ rs t, Tree.run cmp .nil cs = some (rs, t) ∧ ∀ bad : K → Bool,
      ((∀ p ∈ (runC cmp [] cs).2, bad p.1 = false) → (dump bad t).2 = none ∧ (flatKeys (dump bad t).1).Perm ((runC cmp [] cs).2.map Prod.fst) ∧
        treeKeys (dump bad t).1 = ((runC cmp [] cs).2.map Prod.fst).reverse) ∧
      ((∃ p ∈ (runC cmp [] cs).2, bad p.1 = true) → (dump bad t).2 = some .codec) := by
  obtain ⟨rs, t, e1, -, -, e4⟩ := run_ok H cs OK.nil hp
  refine ⟨rs, t, e1, fun bad => ?_⟩
  rw [show (runC cmp [] cs).2 = t.toList from e4.symm]
  exact dump_full bad t

/-- A map of three keys with one that DumpKey fails for. -/
example : ∃ rs t, Tree.run Sample.cmp .nil [.op (.put 2 20), .op (.put 1 10), .op (.put 3 30)] = some (rs, t) ∧
    (dump (fun k => k == 3) t).2 = some .codec ∧ treeKeys (dump (fun _ => false) t).1 = [3, 2, 1] := by
  obtain ⟨rs, t, h1, h2⟩ := C54_llrb_dump Sample.lawful [.op (.put 2 20), .op (.put 1 10), .op (.put 3 30)]
    (by
      intro c hc k hk
      simp only [List.mem_cons, List.not_mem_nil, or_false] at hc
      rcases hc with rfl | rfl | rfl <;> cases hk <;> show _ < 1000 <;> omega)
  exact ⟨rs, t, h1, (h2 _).2 ⟨(3, 30), by decide, rfl⟩, ((h2 _).1 (by simp)).2.2⟩

end

section
open Api BT

variable {K V : Type} {S : Setup K V} {fuel : Nat} {cs : Calls K V} {t : TreeId} {v : Env} {cb : DumpCb K V}

/-- **C54**, the part that holds. Dump of a B+Tree map after every history: it never panics; what it prints are items of the map, in order and none twice; it prints
all of them and succeeds if no callback fails; an error it reports is one of reading or of DumpKey or DumpValue; and it leaves the contents of every map, and
what is stored, as they are. Missing: that without an error everything has been printed, which is false (`C54_btree_dump_hides_failure`). -/
theorem C54_btree_dump_partial (h : Hist S fuel (cs ++ [(.dump t cb, v)])) :
    (∃ l d, S.Has fuel (S.now fuel cs) t l ∧ (S.run fuel (S.now fuel cs) (.dump t cb) v).1 = .ok (.dumped d) ∧
      (shown d.1).Sublist l ∧
      (v.CanRead → (∀ k, cb.keyFails k = false) → (∀ x, cb.valueFails x = false) → d.2 = none ∧ shown d.1 = l) ∧
      ∀ e, d.2 = some e → v.faults.reading e ∨ (e = .codec ∧ ((∃ k, cb.keyFails k = true) ∨ ∃ x, cb.valueFails x = true))) ∧
    (∀ t' l', Opened S fuel cs t' → S.Has fuel (S.now fuel cs) t' l' → S.Has fuel (S.now fuel (cs ++ [(.dump t cb, v)])) t' l') ∧
    (S.now fuel (cs ++ [(.dump t cb, v)])).disk = (S.now fuel cs).disk := by
  obtain ⟨h0, s, s', m, h1, h2, h3, h4, h5, h6, h7⟩ := h.call rfl
  obtain ⟨-, -, d, k1, k2, k3, k4⟩ := h5
  refine ⟨⟨m.items, d, h4, k1, k2, fun hv => k3 fun e => ?_, k4⟩, fun t' l' ho hl => harmless_has h trivial hl ho, ?_⟩
  · exact (show v.faults.NoRead from hv.no).not
  · have := ((Still.dump (S.cfg t).cmp cb t fuel).run ((S.now fuel cs).using v)).disk
    rw [Setup.now, after_one]
    show (S.run fuel (S.now fuel cs) (.dump t cb) v).2.disk = _
    unfold Setup.run exec
    rw [reply_world, this]
    rfl

/-- The callbacks of Dump work. -/
def sampleDump : DumpCb Nat Nat := ⟨fun _ => false, fun _ => false⟩

/-- The second GetNode call fails. -/
def blinkEnv : Env := { sampleEnv with getFails := fun n => n == 1 }

example := C54_btree_dump_partial (storeHist_call (c := .dump 0 sampleDump) rfl blinkEnv trivial)

/-- The number of items printed, if there is no error. -/
def printed : Out (Api.Reply Nat Nat) → Option Nat
  | .ok (.dumped (d, none)) => some (shown d).length
  | _ => none

/-- C54 is false for B+Trees: Dump reports no error although it could not read a node and has not printed the items below it. -/
theorem C54_btree_dump_hides_failure : ∃ (S : Setup Nat Nat) (fuel : Nat) (cs : Calls Nat Nat) (cb : DumpCb Nat Nat) (v : Env) (ls : List (Line Nat Nat)),
    Hist S fuel (cs ++ [(.dump 0 cb, v)]) ∧ (S.run fuel (S.now fuel cs) (.dump 0 cb) v).1 = .ok (.dumped (ls, none)) ∧ ∀ l, S.Has fuel (S.now fuel cs) 0 l → shown ls ≠ l := by
  have h1 : printed (sampleSetup.run 60 (sampleSetup.now 60 (storeHist ++ [(.purge 0 true, calmEnv)])) (.dump 0 sampleDump) blinkEnv).1 = some 8 := by decide +kernel
  have h2 : countOf (sampleSetup.run 60 (sampleSetup.now 60 (storeHist ++ [(.purge 0 true, calmEnv)])) (.op 0 .len) calmEnv).1 = some 19 := by decide +kernel
  rcases hd : (sampleSetup.run 60 (sampleSetup.now 60 (storeHist ++ [(.purge 0 true, calmEnv)])) (.dump 0 sampleDump) blinkEnv).1 with r | e | _ <;> rw [hd] at h1
  · cases r with
    | dumped d =>
      obtain ⟨d, e⟩ := d
      cases e with
      | none =>
        refine ⟨sampleSetup, 60, _, sampleDump, blinkEnv, d, ?_, hd, fun l hl e => ?_⟩
        · rw [List.append_assoc]
          exact storeHist_then (by simp only [List.mem_cons, List.not_mem_nil, or_false, forall_eq_or_imp, forall_eq, List.cons_append, List.nil_append]; exact ⟨⟨rfl, trivial⟩, rfl, trivial⟩) (by simp)
        · rw [(hl calmEnv calmEnv_works.1).1] at h2
          simp only [printed, countOf, Option.some.injEq] at h1 h2
          rw [e] at h1
          omega
      | some e => cases h1
    | _ => cases h1
  · cases h1
  · cases h1

end
end SM.Props

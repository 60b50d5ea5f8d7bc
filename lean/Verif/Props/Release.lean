import Verif.Props.Memory
import Verif.Props.Store

/-!
What Flush(true) and Purge leave in memory (C62).
-/

namespace SM.BT
variable {K V : Type}

theorem dirty_mem : ∀ {h : Nat} (t : Gt K V h), t.odds = 0 → t.st = none → (t.id, true) ∈ t.mem
  | 0, t, hz, hs => by
      rcases t.cases0 with ⟨i, d, rfl⟩ | ⟨i, st, l, rfl⟩ | ⟨i, o, l, rfl⟩
      · simp at hs
      · simp only [st_leaf] at hs
        subst hs
        exact Multiset.mem_singleton_self _
      · simp at hz
  | h + 1, t, hz, hs => by
      rcases t.casesS with ⟨i, d, rfl⟩ | ⟨i, st, r, rfl⟩ | ⟨i, o, l, rfl⟩
      · simp at hs
      · simp only [st_inner] at hs
        subst hs
        rw [mem_inner]
        exact Multiset.mem_add.2 (.inl (Multiset.mem_singleton_self _))
      · simp [odds_odInner] at hz

end SM.BT

namespace SM.Props

open BT Spec

section
variable {K V : Type} {S : Setup K V} {fuel : Nat} {cs : Calls K V} {t t' : TreeId} {v : Env} {r : Api.Reply K V} {w w' : World K V}

/-- A node of the map is in memory; `d`: it has changes that are not stored. -/
def InMemory (w : World K V) (t : TreeId) (i : Id) (d : Bool) : Prop := Holds w t i ∧ (w.node i).loaded = true ∧ (w.node i).dirty = d

/-- The map before and after a call on it. -/
theorem Opened.entry (h : Opened S fuel cs t) : ∃ s L1 e L2 LK, Show S.cfg cs.length (S.now fuel cs) s (L1 ++ e :: L2) LK ∧ e.P = S.cfg t ∧ e.P.τ = t ∧ e.H < fuel ∧
    ∀ t', Opened S fuel cs t' ↔ ∃ x ∈ L1 ++ e :: L2, x.P.τ = t' := by
  have hfu := h.enough
  simp only [List.length_append, List.length_singleton] at hfu
  have h0 : Hist S fuel cs := (Hist.call h rfl).1
  obtain ⟨s, L, LK, h1, h2, hS, ho⟩ := Hist.scene h0 hfu
  obtain ⟨e, he, het⟩ := (ho t).1 h
  have hP := hS.cfg e he
  rw [het] at hP
  have hH := hS.high e he
  have hft := hfu t
  obtain ⟨L1, L2, rfl⟩ := List.append_of_mem he
  exact ⟨s, L1, e, L2, LK, hS, hP, het, by omega, ho⟩

theorem memory_after {s : Api.St K V} {L1 L2 : List (Ent K V)} {e : Ent K V} {LK : Multiset (Ref × DiskNode K V)} {n H' : Nat} {w0 : World K V} {T : Tot K V} {g' : Gt K V H'}
    (hS : Show S.cfg n w s (L1 ++ e :: L2) LK) (hr : Rest e.P w0 T (whole (L1 ++ L2) + pagesB LK) g' w') (ho : ∀ σ, σ ≠ e.P.τ → w'.trees σ = w.trees σ) :
    (∀ i d, InMemory w' e.P.τ i d ↔ (i, d) ∈ g'.mem) ∧ (∀ i d, InMemory w e.P.τ i d ↔ (i, d) ∈ e.g.mem) ∧
    (∀ x ∈ L1 ++ e :: L2, x.P.τ ≠ e.P.τ → ∀ i d, InMemory w' x.P.τ i d ↔ InMemory w x.P.τ i d) ∧
    ((∀ x ∈ L1 ++ e :: L2, x.P.τ = e.P.τ) → g'.mem = 0 → w'.lru.clean.items = 0 ∧ w'.lru.dirty.items = 0) := by
  obtain ⟨SP, hS', -⟩ := hS.scene.back hr ho
  have key : ∀ i d, InMemory w' e.P.τ i d ↔ (i, d) ∈ g'.mem := fun i d => (hS'.mem (e := ⟨e.P, H', g', SP, T.2⟩) (by simp) (i := i) (d := d)).symm
  refine ⟨key, fun i d => (hS.scene.mem (by simp)).symm, fun x hx hxe i d => ?_, fun hone hz => ?_⟩
  · have hx' : x ∈ L1 ++ ⟨e.P, H', g', SP, T.2⟩ :: L2 := by
      have : x ≠ e := by rintro rfl; exact hxe rfl
      simp only [List.mem_append, List.mem_cons] at hx ⊢
      tauto
    exact (hS'.mem hx').symm.trans (hS.scene.mem hx)
  · obtain ⟨l, a1, a2⟩ := hS'.lists
    have hn : ∀ d, l d = [] := by
      intro d
      refine List.eq_nil_iff_forall_not_mem.2 fun i hi => ?_
      obtain ⟨x, hx, -, c2⟩ := (a2 d i).1 hi
      have hxe : x.P.τ = e.P.τ := by
        rw [List.mem_append, List.mem_cons] at hx
        rcases hx with hx | rfl | hx
        · exact hone x (by simp [hx])
        · rfl
        · exact hone x (by simp [hx])
      rw [hxe] at c2
      have := (key i d).1 c2
      rw [hz] at this
      simp at this
    exact ⟨(a1.lst false).items.trans (by rw [hn]; rfl), (a1.lst true).items.trans (by rw [hn]; rfl)⟩

/-- C62, Flush(true): when it succeeds no node of the map is in memory, and the nodes of other maps are as they were. If there is no other map, the cache is empty. -/
theorem C62_flush_releases (h : Opened S fuel cs t) (hr : S.run fuel (S.now fuel cs) (.flush t true) v = (.ok r, w')) :
    (∀ i d, ¬ InMemory w' t i d) ∧
    (∀ t', t' ≠ t → Opened S fuel cs t' → ∀ i d, InMemory w' t' i d ↔ InMemory (S.now fuel cs) t' i d) ∧
    ((∀ t', Opened S fuel cs t' → t' = t) → w'.lru.clean.items = 0 ∧ w'.lru.dirty.items = 0) := by
  obtain ⟨s, L1, e, L2, LK, hS, hP, rfl, hH, ho⟩ := h.entry
  replace hr : reply .loc (flush S.size e.P.τ fuel true) ((S.now fuel cs).using v) = (.ok r, w') := hr
  rcases (flush_run S.size true (hS.using v).scene.focus hH).cases with ⟨a, w1, e1, g', N, -, k1, -, k2, k3, -⟩ | ⟨x, w1, e1, -⟩
  · rw [reply_ok e1] at hr
    cases hr
    obtain ⟨m1, -, m2, m3⟩ := memory_after hS k3 k2.others
    have hz : g'.mem = 0 := mem_ofUnl (k1.gone rfl)
    refine ⟨fun i d hm => by simpa [hz] using (m1 i d).1 hm, fun t' ht' ho' i d => ?_, fun hone => m3 (fun x hx => hone _ ((ho _).2 ⟨x, hx, rfl⟩)) hz⟩
    obtain ⟨x, hx, rfl⟩ := (ho t').1 ho'
    exact m2 x hx ht' i d
  · rw [reply_err e1] at hr
    cases hr

/-- C62, Purge: it fails exactly if it is to be a full one and a node has changes that are not stored, and then changes nothing. Otherwise, of the nodes
in memory those with such changes are left and no others; after a full one that is none. The nodes of other maps are as they were. -/
theorem C62_purge_releases (h : Opened S fuel cs t) (full : Bool) :
    ((full = true ∧ ∃ i, InMemory (S.now fuel cs) t i true) →
      ∃ x, S.run fuel (S.now fuel cs) (.purge t full) v = (.err x, (S.now fuel cs).using v)) ∧
    (¬ (full = true ∧ ∃ i, InMemory (S.now fuel cs) t i true) →
      ∃ w', S.run fuel (S.now fuel cs) (.purge t full) v = (.ok .unit, w') ∧
        (∀ i d, InMemory w' t i d ↔ InMemory (S.now fuel cs) t i d ∧ d = true) ∧
        (∀ t', t' ≠ t → Opened S fuel cs t' → ∀ i d, InMemory w' t' i d ↔ InMemory (S.now fuel cs) t' i d) ∧
        ((∀ t', Opened S fuel cs t' → t' = t) → full = true → w'.lru.clean.items = 0 ∧ w'.lru.dirty.items = 0)) := by
  obtain ⟨s, L1, e, L2, LK, hS, hP, rfl, hH, ho⟩ := h.entry
  have hrest := (hS.using v).scene.focus
  have hm : ∀ i d, InMemory (S.now fuel cs) e.P.τ i d ↔ (i, d) ∈ e.g.mem := fun i d => (hS.scene.mem (by simp)).symm
  have hroot : e.g.st = none → ∃ i, InMemory (S.now fuel cs) e.P.τ i true := by
    intro hs
    exact ⟨e.g.id, (hm _ _).2 (dirty_mem e.g hrest.odds hs)⟩
  have hnone : e.g.st.isSome → ¬ ∃ i, InMemory (S.now fuel cs) e.P.τ i true := by
    rintro hs ⟨i, hi⟩
    have := clean_mem e.g hrest.odds hrest.clean hs
    have h2 : (i, true) ∈ e.g.mem.filter fun p => p.2 = true := Multiset.mem_filter.2 ⟨(hm i true).1 hi, rfl⟩
    rw [this] at h2
    simp at h2
  have hrun : S.run fuel (S.now fuel cs) (.purge e.P.τ full) v = reply (fun _ => .unit) (purge e.P.τ fuel full) ((S.now fuel cs).using v) := rfl
  rw [hrun]
  rcases (purge_run hrest hH full).cases with ⟨_, w1, e1, h0, g', k1, k2, ⟨-, k3⟩, k4⟩ | ⟨x, w1, e1, -, h1, h2, rfl⟩
  · rw [reply_ok e1]
    have hno : ¬ (full = true ∧ ∃ i, InMemory (S.now fuel cs) e.P.τ i true) := fun ⟨a, b⟩ => hnone (h0 a) b
    refine ⟨fun a => absurd a hno, fun _ => ⟨w1, rfl, ?_⟩⟩
    obtain ⟨m1, -, m2, m3⟩ := memory_after hS k4 k4.I.evo.others
    refine ⟨fun i d => ?_, fun t' ht' ho' i d => ?_, fun hone hfull => m3 (fun x hx => hone _ ((ho _).2 ⟨x, hx, rfl⟩)) (mem_ofUnl (k2 (h0 hfull)))⟩
    · rw [m1, hm, k3, Multiset.mem_filter]
    · obtain ⟨x, hx, rfl⟩ := (ho t').1 ho'
      exact m2 x hx ht' i d
  · rw [reply_err e1]
    exact ⟨fun _ => ⟨x, rfl⟩, fun a => absurd ⟨h1, hroot h2⟩ a⟩

end

/-- `storeHist` and then TouchItem: map 0 has three nodes with changes in memory. A full Purge fails, another one leaves three nodes, Flush(true) none. -/
theorem storeHist_touchedOpen : Opened sampleSetup 60 (storeHist ++ [(.touchItem 0 3, calmEnv)]) 0 := by
  rw [Opened, List.append_assoc]
  exact storeHist_then (by simp only [List.cons_append, List.nil_append, List.mem_cons, List.not_mem_nil, or_false, forall_eq_or_imp, forall_eq]; exact ⟨⟨rfl, trivial⟩, rfl, trivial⟩) (by simp)

example : ∃ w', sampleSetup.run 60 (sampleSetup.now 60 (storeHist ++ [(.touchItem 0 3, calmEnv)])) (.purge 0 false) calmEnv = (.ok .unit, w') ∧
    ∀ i d, InMemory w' 0 i d ↔ InMemory (sampleSetup.now 60 (storeHist ++ [(.touchItem 0 3, calmEnv)])) 0 i d ∧ d = true := by
  obtain ⟨w', h1, h2, -⟩ := (C62_purge_releases (v := calmEnv) storeHist_touchedOpen false).2 (by simp)
  exact ⟨w', h1, h2⟩
example : (errOf (sampleSetup.run 60 (sampleSetup.now 60 (storeHist ++ [(.touchItem 0 3, calmEnv)])) (.purge 0 true) calmEnv).1).isSome = true ∧
    (sampleSetup.run 60 (sampleSetup.now 60 (storeHist ++ [(.touchItem 0 3, calmEnv)])) (.purge 0 false) calmEnv).2.lru.dirty.items = 3 ∧
    (sampleSetup.run 60 (sampleSetup.now 60 (storeHist ++ [(.touchItem 0 3, calmEnv)])) (.flush 0 true) (putEnv 11)).2.lru.dirty.items = 0 := by decide +kernel
example : (locOf (sampleSetup.run 60 (sampleSetup.now 60 (storeHist ++ [(.touchItem 0 3, calmEnv)])) (.flush 0 true) (putEnv 11)).1).isSome = true := by decide +kernel
/-- Before a full Purge that succeeds there are nodes in memory. -/
example : (sampleSetup.now 60 storeHist).lru.clean.items = 3 ∧ (sampleSetup.run 60 (sampleSetup.now 60 storeHist) (.purge 0 true) calmEnv).2.lru.clean.items = 0 := by decide +kernel

end SM.Props

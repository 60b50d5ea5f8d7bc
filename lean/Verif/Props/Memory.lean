import Verif.Props.Shape

/-!
What FetchLayoutReport leaves in memory (C52).
-/

namespace SM.BT
variable {K V : Type} {P : Par K}

theorem mem_iff : ∀ {h : Nat} {q : Pos} (t : Gt K V h), t.odds = 0 → ∀ {i : Id} {d : Bool},
    (i, d) ∈ t.mem ↔ ∃ c ∈ (bun P q t).1, c.id = i ∧ c.dirty = d ∧ ∀ n, c.body ≠ .unl n
  | 0, q, t, hz, i, d => by
      rcases t.cases0 with ⟨j, e, rfl⟩ | ⟨j, st, l, rfl⟩ | ⟨j, o, l, rfl⟩
      · rw [bun_unl_1, mem_ofUnl rfl]
        simp [mkCell]
      · rw [bun_leaf_1]
        show (i, d) ∈ ({(j, st.isNone)} : Multiset (Id × Bool)) ↔ _
        simp [mkCell, eq_comm]
      · simp at hz
  | h + 1, q, t, hz, i, d => by
      rcases t.casesS with ⟨j, e, rfl⟩ | ⟨j, st, r, rfl⟩ | ⟨j, o, r, rfl⟩
      · rw [bun_unl_1, mem_ofUnl rfl]
        simp [mkCell]
      · rw [bun_inner_1, mem_inner, Multiset.mem_add, mem_listSum]
        have ih := fun t (ht : t ∈ r.kids) => mem_iff (q := Pos.child j) t (odds_kid hz ht) (i := i) (d := d)
        constructor
        · rintro (h | ⟨t, ht, h⟩)
          · simp only [Multiset.mem_singleton, Prod.mk.injEq] at h
            exact ⟨_, Multiset.mem_cons_self _ _, h.1.symm, h.2.symm, fun n => by simp [mkCell, Row.body]⟩
          · obtain ⟨c, h1, h2⟩ := (ih t ht).1 h
            exact ⟨c, Multiset.mem_cons_of_mem (mem_cellsB.2 ⟨t, ht, h1⟩), h2⟩
        · rintro ⟨c, hc, h1, h2, h3⟩
          rcases Multiset.mem_cons.1 hc with rfl | hc
          · exact .inl (by rw [← h1, ← h2]; simp [mkCell])
          · obtain ⟨t, ht, hc⟩ := mem_cellsB.1 hc
            exact .inr ⟨t, ht, (ih t ht).2 ⟨c, hc, h1, h2, h3⟩⟩
      · simp [odds_odInner] at hz

variable {w : World K V} {L : List (Ent K V)} {LK : Multiset (Ref × DiskNode K V)} {e : Ent K V}

theorem Scene.mem (h : Scene w L LK) (he : e ∈ L) {i : Id} {d : Bool} :
    (i, d) ∈ e.g.mem ↔ Holds w e.P.τ i ∧ (w.node i).loaded = true ∧ (w.node i).dirty = d := by
  have ho := h.ok e he
  rw [mem_iff (P := e.P) (q := ⟨none, true⟩) e.g ho.odds]
  have hl : ∀ c ∈ (bun e.P ⟨none, true⟩ e.g).1, (∀ n, c.body ≠ .unl n) ↔ (w.node c.id).loaded = true := by
    intro c hc
    have hb := (h.cells he c hc).body
    cases hbc : c.body with
    | unl n => rw [hbc] at hb; simp [hb.1]
    | leaf n l => rw [hbc] at hb; simp [hb.1]
    | inner n c0 cs ps => rw [hbc] at hb; simp [hb.1]
    | raw => exact absurd hbc (bun_raw e.g ho.odds c hc)
  constructor
  · rintro ⟨c, hc, rfl, h1, h2⟩
    exact ⟨(holds_iff ho.odds (h.cells he) ho.root).2 ⟨c, hc, rfl⟩, (hl c hc).1 h2, (h.cells he c hc).dirty.trans h1⟩
  · rintro ⟨h1, h2, h3⟩
    obtain ⟨c, hc, rfl⟩ := (holds_iff ho.odds (h.cells he) ho.root).1 h1
    exact ⟨c, hc, rfl, (h.cells he c hc).dirty.symm.trans h3, (hl c hc).2 h2⟩

end SM.BT

namespace SM.Props

open BT Spec

section
variable {K V : Type} {S : Setup K V} {fuel : Nat} {cs : Calls K V} {t t' : TreeId} {v : Env} {r : Api.Reply K V} {w' : World K V}

/-- C52: a FetchLayoutReport that succeeds leaves in memory the nodes that were there, of every map, as dirty as they were, and no others; and as many nodes on
each list of the cache. -/
theorem C52_layout_keeps_memory (h : Opened S fuel cs t) (hr : S.run fuel (S.now fuel cs) (.layout t) v = (.ok r, w')) :
    (∀ t', Opened S fuel cs t' → ∀ i d, (Holds w' t' i ∧ (w'.node i).loaded = true ∧ (w'.node i).dirty = d) ↔
      (Holds (S.now fuel cs) t' i ∧ ((S.now fuel cs).node i).loaded = true ∧ ((S.now fuel cs).node i).dirty = d)) ∧
    w'.lru.clean.items = (S.now fuel cs).lru.clean.items ∧ w'.lru.dirty.items = (S.now fuel cs).lru.dirty.items := by
  have hfu := h.enough
  simp only [List.length_append, List.length_singleton] at hfu
  have h0 : Hist S fuel cs := (Hist.call h rfl).1
  obtain ⟨s, L, LK, h1, h2, hS, ho⟩ := Hist.scene h0 hfu
  obtain ⟨e, he, het⟩ := (ho t).1 h
  have hP := hS.cfg e he
  rw [het] at hP
  have hH := hS.high e he
  obtain ⟨L1, L2, rfl⟩ := List.append_of_mem he
  have hft := hfu t
  rcases (fetchLayoutReport_run (hS.using v).scene.focus (by omega : e.H < fuel)).cases with ⟨_, w1, e1, -, g', ⟨k1, k2⟩, k3⟩ | ⟨x, w1, e1, -⟩
  · have hw : w1 = w' := by
      rw [hP, S.named] at e1
      have : (reply .layout (fetchLayoutReport (S.cfg t).cmp t fuel) ((S.now fuel cs).using v)) = (.ok r, w') := hr
      rw [reply_ok e1] at this
      cases this
      rfl
    subst hw
    obtain ⟨SP, hS', -⟩ := (hS.using v).scene.back k3 k3.I.evo.others
    have key : ∀ x ∈ L1 ++ e :: L2, ∀ i d, (Holds w1 x.P.τ i ∧ (w1.node i).loaded = true ∧ (w1.node i).dirty = d) ↔
        (Holds (S.now fuel cs) x.P.τ i ∧ ((S.now fuel cs).node i).loaded = true ∧ ((S.now fuel cs).node i).dirty = d) := by
      intro x hx i d
      rw [← hS.scene.mem hx]
      by_cases hxe : x = e
      · subst hxe
        have := hS'.mem (e := ⟨x.P, x.H, g', SP, x.fails⟩) (by simp) (i := i) (d := d)
        rw [← this, k2]
      · have hx' : x ∈ L1 ++ ⟨e.P, e.H, g', SP, e.fails⟩ :: L2 := by
          simp only [List.mem_append, List.mem_cons] at hx ⊢
          tauto
        exact (hS'.mem hx').symm
    refine ⟨fun t' ht' i d => ?_, ?_⟩
    · obtain ⟨x, hx, rfl⟩ := (ho t').1 ht'
      exact key x hx i d
    · obtain ⟨l, a1, a2⟩ := hS.scene.lists
      obtain ⟨l', b1, b2⟩ := hS'.lists
      have hlen : ∀ d, (l' d).length = (l d).length := by
        intro d
        refine ((List.perm_ext_iff_of_nodup (b1.nodup d) (a1.nodup d)).2 fun i => ?_).length_eq
        rw [a2, b2]
        constructor
        · rintro ⟨x, hx, c1, c2⟩
          rw [List.mem_append, List.mem_cons] at hx
          rcases hx with hx | rfl | hx
          · exact ⟨x, by simp [hx], c1, (key x (by simp [hx]) i d).1 c2⟩
          · exact ⟨e, by simp, c1, (key e (by simp) i d).1 c2⟩
          · exact ⟨x, by simp [hx], c1, (key x (by simp [hx]) i d).1 c2⟩
        · rintro ⟨x, hx, c1, c2⟩
          have c3 := (key x hx i d).2 c2
          rw [List.mem_append, List.mem_cons] at hx
          rcases hx with hx | rfl | hx
          · exact ⟨x, by simp [hx], c1, c3⟩
          · exact ⟨⟨x.P, x.H, g', SP, x.fails⟩, by simp, c1, c3⟩
          · exact ⟨x, by simp [hx], c1, c3⟩
      exact ⟨(b1.lst false).items.trans ((hlen false).trans (a1.lst false).items.symm), (b1.lst true).items.trans ((hlen true).trans (a1.lst true).items.symm)⟩
  · rw [hP, S.named] at e1
    have : (reply .layout (fetchLayoutReport (S.cfg t).cmp t fuel) ((S.now fuel cs).using v)) = (.ok r, w') := hr
    rw [reply_err e1] at this
    cases this

/-- After `storeHist`, of the nodes of map 0, on three levels, the cache has only three; its report succeeds and leaves three. -/
example : ∃ r w', sampleSetup.run 60 (sampleSetup.now 60 storeHist) (.layout 0) calmEnv = (.ok r, w') ∧ w'.lru.clean.items = 3 := by
  obtain ⟨r, l, h⟩ := storeHist_stored
  obtain ⟨-, -, -, L, h1, -⟩ := C43_layout_report h calmEnv_works.1
  rcases hr : sampleSetup.run 60 (sampleSetup.now 60 storeHist) (.layout 0) calmEnv with ⟨o, w'⟩
  rw [hr] at h1
  cases h1
  refine ⟨_, w', rfl, (C52_layout_keeps_memory storeHist_open hr).2.1.trans ?_⟩
  decide +kernel

end

end SM.Props

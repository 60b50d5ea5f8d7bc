import Verif.BTree.Reads
import Verif.BTree.Flush

/-! Touch and Discard read no more nodes than are stored: a node that is read has a page on disk, which is given up when the node is marked. -/

namespace SM.BT

variable {K V : Type}

section
variable {P : Par K} {w0 : World K V} {T : Tot K V} {ρ : Option Id} {R : B K V} {H : Nat}

/-- Nodes on disk among what is described. -/
def B.stored (R : B K V) : Nat := Multiset.card R.2.2.1

theorem B.stored_add (X Y : B K V) : (X + Y).stored = X.stored + Y.stored := by simp [B.stored]

theorem visit_gets {q : Pos} {t : Gt K V h} {w : World K V} (hI : I P w0 T w ρ (bun P q t + R)) :
    (visit P.cmp P.τ false t.id w).2.env.gets ≤ w.env.gets + if t.ld then 0 else 1 := by
  cases hl : t.ld with
  | false => simpa using ((Reads.visit P.cmp P.τ false t.id).run w).2
  | true =>
    have h1 := hI.loaded
    rw [hl] at h1
    have hd : Dry (do incCacheHits P.τ; pure () : M K V Unit) := by dry
    unfold visit
    simp only [getN_bind, h1, if_true, Bool.false_eq_true, if_false]
    exact (hd.run w).le

theorem stored_page {q : Pos} (t : Gt K V h) (hl : t.ld = false) : 1 ≤ (bun P q t).stored := by
  obtain ⟨i, d, rfl⟩ : ∃ i d, t = .unl i d := by
    cases t with
    | unl i d => exact ⟨i, d, rfl⟩
    | ld i st x => cases hl
    | od i o x => cases hl
  rw [bun_unl]
  cases h with
  | zero => rcases d.cases0 with ⟨r, l, rfl⟩; simp [B.stored, pages_leaf, cellB, offB, pagesB]
  | succ h => rcases d.casesS with ⟨r, l, rfl⟩; simp [B.stored, pages_inner, cellB, offB, pagesB]

theorem stored_own (st : Option Ref) (d : DiskNode K V) : (ownPage st d).stored = if st.isSome then 1 else 0 := by
  cases st <;> simp [ownPage, B.stored, pageB]

theorem stored_inner (q : Pos) (i : Id) (st : Option Ref) (r : Row K Kid) : (innerB P q i st r : B K V).stored = if st.isSome then 1 else 0 := by
  rw [innerB, B.stored_add, stored_own]; simp [B.stored]

theorem stored_leaf (q : Pos) (i : Id) (st : Option Ref) (l : List (K × V)) : (leafB P q i st l).stored = if st.isSome then 1 else 0 := by
  rw [leafB, B.stored_add, stored_own]; simp [B.stored]

theorem touchNode_gets : ∀ {h : Nat} {q : Pos} (t : Gt K V h) {w : World K V} {R : B K V} {fuel c : Nat}, h < fuel →
    I P w0 T w ρ (bun P q t + R) → t.odds = 0 → t.Clean → Ord P.toCmp t.erase.seq → w.env.gets + (bun P q t + R).stored ≤ c →
    Res (touchNode P.cmp P.τ fuel t.id w)
      (fun _ w' => ∃ g, (Alike t g ∧ g.st = none) ∧ I P w0 T w' ρ (bun P q g + R) ∧ w'.env.gets + (bun P q g + R).stored ≤ c)
      (fun _ w' => w'.env.gets + R.stored ≤ c)
  | h, q, t, w, R, 0, c, hf, _, _, _, _, _ => by omega
  | h, q, t, w, R, fuel + 1, c, hf, hI, hz, hcl, ho, hc => by
      unfold touchNode
      have hv := visit_gets hI
      have hp : (if t.ld then 0 else 1) ≤ (bun P q t).stored := by
        cases hl : t.ld with
        | true => simp
        | false => simpa using stored_page t hl
      have hst : (if t.ld then 0 else 1) ≤ if t.st.isSome then 1 else 0 := by
        cases t with
        | unl i d => simp only [Gt.st, Option.isSome_some, if_true]; split <;> omega
        | ld i st x => simp [Gt.ld]
        | od i o x => simp [Gt.ld]
      rw [B.stored_add] at hc
      rcases (visit_run false hI hz ho).cases with ⟨a, w1, e1, t1, hl, hs, h1⟩ | ⟨e, w1, e1, -⟩
      swap
      · rw [bind_err e1]
        rw [e1] at hv
        exact Res.err rfl (by simp only at hv; omega)
      rw [e1] at hv
      simp only at hv
      rw [bind_ok e1]
      have ha := hs.alike hz hcl
      have hps : (bun P q t1).stored = (bun P q t).stored := by rw [B.stored, hs.pages]; rfl
      rw [← hps] at hc
      rw [← hs.st] at hst
      rw [← hs.erase] at ho
      rw [← hs.id]
      have hdry : ∀ {i : Id} {w2 : World K V}, markNodeDirty P.τ i w1 = (.ok (), w2) → w2.env.gets = w1.env.gets := fun {i w2} e => by
        have := (Dry.markNodeDirty P.τ i).run w1
        rw [e] at this
        exact this
      cases h with
      | zero =>
        rcases t1.cases0 with ⟨i, d, rfl⟩ | ⟨i, st, l, rfl⟩ | ⟨i, o, l, rfl⟩
        · cases hl
        · rw [bun_leaf, leafB] at h1
          obtain ⟨w2, e2, h2⟩ := h1.markDirty (c := mkCell P q i st (.leaf l.length l)) rfl
          have e2' : markNodeDirty P.τ i w1 = (.ok (), w2) := e2
          have h3 : I P w0 T w2 ρ (bun P q (.leaf i none l) + R) := by
            refine h2.eq ?_
            rw [bun_leaf, leafB, ownPage_none, add_zero]; rfl
          have hg := hdry e2'
          rw [id_leaf, bind_ok e2', eachChild, getN_bind, h3.isLeaf.leaf]
          refine Res.ok rfl ⟨.leaf i none l, ⟨ha.trans ⟨rfl, rfl, trivial, rfl⟩, rfl⟩, h3, ?_⟩
          rw [bun_leaf, stored_leaf, st_leaf] at *
          rw [B.stored_add, stored_leaf]
          simp only [Option.isSome_none, Bool.false_eq_true, if_false]
          omega
        · have := ha.odds; simp at this
      | succ h =>
        rcases t1.casesS with ⟨i, d, rfl⟩ | ⟨i, st, r, rfl⟩ | ⟨i, o, l, rfl⟩
        · cases hl
        · rw [bun_inner, innerB, add_assoc] at h1
          obtain ⟨w2, e2, h2⟩ := h1.markDirty (c := mkCell P q i st (r.map Gt.kid).body) rfl
          have e2' : markNodeDirty P.τ i w1 = (.ok (), w2) := e2
          have hg := hdry e2'
          have hw : I P w0 T w2 ρ (innerB P q i none (r.map Gt.kid) + (kidsB P i r.kids + R)) := by
            refine h2.eq ?_
            rw [innerB, ownPage_none, add_zero]; rfl
          have hw' : w2.env.gets + (innerB P q i none (r.map Gt.kid) + (kidsB P i r.kids + R) : B K V).stored ≤ c := by
            rw [bun_inner, B.stored_add, stored_inner] at hc
            rw [st_inner] at hst
            rw [B.stored_add, B.stored_add, stored_inner]
            simp only [Option.isSome_none, Bool.false_eq_true, if_false]
            have : (kidsB P i r.kids).stored = ((r.kids.map (bun P (Pos.child i))).sum).stored := by rw [kids_sum]
            omega
          have hcc := ha.clean
          rw [Clean_inner] at hcc
          have hck : ∀ c ∈ r.kids, c.Clean ∧ c.odds = 0 := fun c hc => ⟨(hcc c hc).1, odds_kid ha.odds hc⟩
          rw [erase_inner] at ho
          have hok : ∀ c ∈ r.kids, Ord P.toCmp c.erase.seq := fun c hc => ho.kid (by simpa using ⟨c, hc, rfl⟩)
          have haN : ∀ {g}, Alike (.inner i none r) g → Alike t g := fun h => ha.trans ⟨h.id, h.erase, h.clean, h.odds⟩
          rw [id_inner, bind_ok e2']
          refine (eachChild_walk2 (A := fun R w => I P w0 T w ρ R ∧ w.env.gets + R.stored ≤ c) (A' := fun _ R w => w.env.gets + R.stored ≤ c) (P := P) (fun h => h.1.cell)
            (bun P (Pos.child i)) (fun _ : Unit => (0 : B K V))
            (Q := fun t g => Alike t g ∧ g.st = none) (E := fun _ _ _ => True)
            (κ := r.map Gt.kid) (L := r.kids) (by simp) 2557
            (f := touchNode P.cmp P.τ fuel) ?_ ⟨hw, hw'⟩).mono ?_ ?_
          · rintro k hk R w ⟨hI, hb⟩
            exact (touchNode_gets k (by omega) hI (hck k hk).2 (hck k hk).1 (hok k hk) hb).mono (fun _ _ h => h) (fun _ _ h => ⟨(), trivial, by rw [zero_add]; exact h⟩)
          · rintro _ w' ⟨L, hL, hI', hb⟩
            obtain ⟨r', a1, a2, a3⟩ := Alike.row (i := i) (forall₂_imp hL fun _ _ _ h => h.1)
            refine ⟨.inner i none r', ⟨haN a2, rfl⟩, ?_, ?_⟩
            · rw [bun_inner, a3, a1, add_assoc]; exact hI'
            · rw [bun_inner, a3, a1, add_assoc]; exact hb
          · rintro e w' ⟨pre, k, post, as, g, -, -, -, h⟩
            simp only [B.stored_add] at h
            omega
        · have := ha.odds; simp [odds_odInner] at this

/-- `Touch` -/
theorem Rest.touchCost {g : Gt K V H} {w : World K V} {fuel : Nat} (hr : Rest P w0 T R g w) (hf : H < fuel) :
    (touch P.cmp P.τ fuel w).2.env.gets ≤ w.env.gets + Multiset.card (bun P ⟨none, true⟩ g).2.2.1 := by
  unfold touch
  rw [bind_ok hr.root]
  have h0 := touchNode_gets g hf hr.I hr.odds hr.clean hr.ord le_rfl
  rw [B.stored_add] at h0
  change _ ≤ w.env.gets + (bun P ⟨none, true⟩ g).stored
  rcases h0.cases with ⟨a, w1, e1, g', -, -, h⟩ | ⟨e, w1, e1, h⟩
  · rw [e1]
    rw [B.stored_add] at h
    simp only
    omega
  · rw [e1]
    simp only
    omega

theorem discardNode_gets : ∀ {h : Nat} {q : Pos} (t : Gt K V h) {w : World K V} {R : B K V} {fuel c : Nat}, h < fuel →
    I P w0 T w ρ (bun P q t + R) → t.odds = 0 → Ord P.toCmp t.erase.seq → w.env.gets + (bun P q t + R).stored ≤ c →
    Res (discardNode P.cmp P.τ fuel t.id w)
      (fun _ w' => I P w0 T w' ρ R ∧ w'.env.gets + R.stored ≤ c)
      (fun _ w' => w'.env.gets + R.stored ≤ c)
  | h, q, t, w, R, 0, c, hf, _, _, _, _ => by omega
  | h, q, t, w, R, fuel + 1, c, hf, hI, hz, ho, hc => by
      unfold discardNode
      have hv := visit_gets hI
      have hp : (if t.ld then 0 else 1) ≤ (bun P q t).stored := by
        cases hl : t.ld with
        | true => simp
        | false => simpa using stored_page t hl
      have hst : (if t.ld then 0 else 1) ≤ if t.st.isSome then 1 else 0 := by
        cases t with
        | unl i d => simp only [Gt.st, Option.isSome_some, if_true]; split <;> omega
        | ld i st x => simp [Gt.ld]
        | od i o x => simp [Gt.ld]
      rw [B.stored_add] at hc
      rcases (visit_run false hI hz ho).cases with ⟨a, w1, e1, t1, hl, hs, h1⟩ | ⟨e, w1, e1, -⟩
      swap
      · rw [bind_err e1]
        rw [e1] at hv
        exact Res.err rfl (by simp only at hv; omega)
      rw [e1] at hv
      simp only at hv
      rw [bind_ok e1]
      have hps : (bun P q t1).stored = (bun P q t).stored := by rw [B.stored, hs.pages]; rfl
      rw [← hps] at hc
      rw [← hs.st] at hst
      rw [← hs.erase] at ho
      rw [← hs.odds] at hz
      rw [← hs.id]
      have hdry : ∀ {i : Id} {w1 w2 : World K V}, markNodeToBeDiscarded P.τ i w1 = (.ok (), w2) → w2.env.gets = w1.env.gets := fun {i w1 w2} e => by
        have := (Dry.markNodeToBeDiscarded P.τ i).run w1
        rw [e] at this
        exact this
      cases h with
      | zero =>
        rcases t1.cases0 with ⟨i, d, rfl⟩ | ⟨i, st, l, rfl⟩ | ⟨i, o, l, rfl⟩
        · cases hl
        · rw [id_leaf]
          have e1 : eachChild 1123 i (discardNode P.cmp P.τ fuel) w1 = (.ok (), w1) := by
            rw [eachChild, getN_bind, h1.isLeaf.leaf]; rfl
          rw [bind_ok e1]
          rw [bun_leaf, stored_leaf] at hc
          rw [st_leaf] at hst
          rw [bun_leaf, leafB] at h1
          obtain ⟨w2, e2, h2⟩ := h1.markDiscard (c := mkCell P q i st (.leaf l.length l)) rfl
          have hg := hdry e2
          rw [add_assoc] at h2
          exact Res.ok e2 ⟨h2.forget.forgetOff, by omega⟩
        · simp at hz
      | succ h =>
        rcases t1.casesS with ⟨i, d, rfl⟩ | ⟨i, st, r, rfl⟩ | ⟨i, o, l, rfl⟩
        · cases hl
        · have hw : I P w0 T w1 ρ (innerB P q i st (r.map Gt.kid) + (kidsB P i r.kids + R)) := by
            rw [bun_inner, add_assoc] at h1; exact h1
          rw [st_inner] at hst
          have hw' : w1.env.gets + (innerB P q i st (r.map Gt.kid) + (kidsB P i r.kids + R) : B K V).stored ≤ c + if st.isSome then 1 else 0 := by
            rw [bun_inner, B.stored_add] at hc
            rw [B.stored_add, B.stored_add]
            have : (kidsB P i r.kids).stored = ((r.kids.map (bun P (Pos.child i))).sum).stored := by rw [kids_sum]
            omega
          rw [erase_inner] at ho
          have hok : ∀ c ∈ r.kids, Ord P.toCmp c.erase.seq := fun c hc => ho.kid (by simpa using ⟨c, hc, rfl⟩)
          rw [id_inner]
          refine (eachChild_walk2 (A := fun R w => I P w0 T w ρ R ∧ w.env.gets + R.stored ≤ c + if st.isSome then 1 else 0)
            (A' := fun _ R w => w.env.gets + R.stored ≤ c + if st.isSome then 1 else 0) (P := P) (fun h => h.1.cell) (fun _ : Unit => (0 : B K V)) (fun _ : Unit => (0 : B K V))
            (Q := fun _ _ => True) (E := fun _ _ _ => True)
            (κ := r.map Gt.kid) (L := r.kids) (by simp) 1123
            (f := discardNode P.cmp P.τ fuel) ?_ ⟨hw, hw'⟩).bind ?_ ?_
          · rintro k hk R w ⟨hI, hb⟩
            exact (discardNode_gets k (by omega) hI (odds_kid hz hk) (hok k hk) hb).mono (fun _ _ h => ⟨(), trivial, by rw [zero_add]; exact h⟩)
              (fun _ _ h => ⟨(), trivial, by rw [zero_add]; exact h⟩)
          · rintro e w' ⟨pre, k, post, as, g, -, -, -, h⟩
            simp only [B.stored_add, stored_inner] at h
            omega
          · rintro _ w' ⟨L, hL, hI', hb⟩
            have e0 : ((L.map fun _ : Unit => (0 : B K V)).sum) = 0 := List.sum_eq_zero (by
              intro o ho
              obtain ⟨x, hx, rfl⟩ := List.mem_map.1 ho
              rfl)
            rw [e0, zero_add, B.stored_add, stored_inner] at hb
            rw [e0, zero_add, innerB] at hI'
            obtain ⟨w2, e2, h2⟩ := hI'.markDiscard (c := mkCell P q i st (r.map Gt.kid).body) rfl
            have hg := hdry e2
            rw [add_assoc] at h2
            exact Res.ok e2 ⟨h2.forget.forgetOff, by omega⟩
        · simp [odds_odInner] at hz

theorem dry_discardDisk (r : Ref) : Dry (discardDisk r : M K V Unit) := ⟨fun w => by
  unfold discardDisk
  split
  · rfl
  · split <;> rfl⟩

theorem dry_pruneLoop : ∀ l : List Ref, Dry (pruneLoop l : M K V Unit)
  | [] => .pure _
  | r :: l => .bind (dry_discardDisk r) fun _ => dry_pruneLoop l

theorem dry_prune (τ : TreeId) : Dry (pruneWhileLocked τ : M K V Unit) :=
  .bind (.getT _) fun _ => .bind ⟨fun _ => rfl⟩ fun l => .bind (dry_pruneLoop l) fun _ => .modT _ _

/-- `Discard` -/
theorem Rest.discardCost {g : Gt K V H} {w : World K V} {fuel : Nat} (hr : Rest P w0 T R g w) (hf : H < fuel) :
    (discard P.cmp P.τ fuel w).2.env.gets ≤ w.env.gets + Multiset.card (bun P ⟨none, true⟩ g).2.2.1 := by
  unfold discard
  rw [bind_ok hr.root]
  have hd : Dry (do pruneWhileLocked P.τ; modT P.τ fun t => { t with root := none, stale := [], cached := false } : M K V Unit) :=
    .bind (dry_prune P.τ) fun _ => .modT _ _
  have h0 := discardNode_gets g hf hr.I hr.odds hr.ord le_rfl
  change _ ≤ w.env.gets + (bun P ⟨none, true⟩ g).stored
  rcases h0.cases with ⟨a, w1, e1, -, h⟩ | ⟨e, w1, e1, h⟩
  · rw [bind_ok (attempt_ok e1)]
    exact (hd.run w1).le.trans (by simp only [B.stored_add] at h; omega)
  · rw [bind_ok (attempt_err e1)]
    exact (hd.run w1).le.trans (by simp only [B.stored_add] at h; omega)

end
end SM.BT

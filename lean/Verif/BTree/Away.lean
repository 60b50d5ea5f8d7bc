import Verif.BTree.Once

/-! Touch and Discard read no node that is in memory: as `Verif/BTree/Once.lean`, with the clean nodes in memory left out of the count. -/

namespace SM.BT

variable {K V : Type}

/-- A loaded node without changes. -/
def Cell.clean (c : Cell K V) : Bool :=
  !c.dirty && match c.body with
    | .leaf _ _ => true
    | .inner _ _ _ _ => true
    | _ => false

/-- How many of them there are among what is described. -/
def B.here (R : B K V) : Nat := R.1.countP fun c => c.clean = true

theorem B.here_add (X Y : B K V) : (X + Y).here = X.here + Y.here := by simp [B.here]

section
variable {P : Par K} {w0 : World K V} {T : Tot K V} {ρ : Option Id} {R : B K V} {H h : Nat}

theorem here_cell (c : Cell K V) : (cellB c).here = if c.clean then 1 else 0 := by
  simp only [B.here, cellB]
  rw [← Multiset.cons_zero, Multiset.countP_cons, Multiset.countP_zero, zero_add]

theorem here_leaf (q : Pos) (i : Id) (st : Option Ref) (l : List (K × V)) : (leafB P q i st l).here = if st.isSome then 1 else 0 := by
  rw [leafB, B.here_add, B.here_add, here_cell]
  cases st <;> simp [B.here, Cell.clean, mkCell, ownPage, pageB, lruB]

theorem here_inner (q : Pos) (i : Id) (st : Option Ref) (r : Row K Kid) : (innerB P q i st r : B K V).here = if st.isSome then 1 else 0 := by
  rw [innerB, B.here_add, B.here_add, here_cell]
  cases st <;> simp [B.here, Cell.clean, mkCell, Row.body, ownPage, pageB, lruB]

theorem here_unl (q : Pos) (t : Gt K V h) (hl : t.ld = false) : (bun P q t).here = 0 := by
  obtain ⟨i, d, rfl⟩ : ∃ i d, t = .unl i d := by
    cases t with
    | unl i d => exact ⟨i, d, rfl⟩
    | ld i st x => cases hl
    | od i o x => cases hl
  rw [bun_unl, B.here_add, B.here_add, here_cell]
  simp [B.here, Cell.clean, mkCell, offB, pagesB]

theorem here_kids (i : Id) (L : List (Gt K V h)) : (kidsB P i L).here = (L.map fun c => (bun P (Pos.child i) c).here).sum := by
  induction L with
  | nil => rfl
  | cons c L ih => rw [kidsB_cons, B.here_add, ih]; rfl

theorem stored_kids (i : Id) (L : List (Gt K V h)) : (kidsB P i L).stored = (L.map fun c => (bun P (Pos.child i) c).stored).sum := by
  induction L with
  | nil => rfl
  | cons c L ih => rw [kidsB_cons, B.stored_add, ih]; rfl

theorem here_mem : ∀ {h : Nat} (q : Pos) (t : Gt K V h), t.odds = 0 → (bun P q t).here = Multiset.card (t.mem.filter fun p => p.2 = false)
  | 0, q, t, hz => by
      rcases t.cases0 with ⟨i, d, rfl⟩ | ⟨i, st, l, rfl⟩ | ⟨i, o, l, rfl⟩
      · rw [here_unl q _ rfl, mem_ofUnl rfl]; rfl
      · rw [bun_leaf, here_leaf, show (Gt.leaf i st l : Gt K V 0).mem = {(i, st.isNone)} from rfl]
        cases st <;> simp [Multiset.filter_singleton]
      · simp at hz
  | h + 1, q, t, hz => by
      rcases t.casesS with ⟨i, d, rfl⟩ | ⟨i, st, r, rfl⟩ | ⟨i, o, l, rfl⟩
      · rw [here_unl q _ rfl, mem_ofUnl rfl]; rfl
      · rw [bun_inner, B.here_add, here_inner, kids_sum, here_kids, mem_inner, Multiset.filter_add, Multiset.card_add]
        have e : ∀ L : List (Gt K V h), (∀ c ∈ L, c ∈ r.kids) → (L.map fun c => (bun P (Pos.child i) c).here).sum = Multiset.card ((L.map Gt.mem).sum.filter fun p => p.2 = false) := by
          intro L hL
          induction L with
          | nil => rfl
          | cons c L ih =>
            rw [List.map_cons, List.sum_cons, List.map_cons, List.sum_cons, Multiset.filter_add, Multiset.card_add, ih fun x hx => hL x (by simp [hx]),
              here_mem _ c (odds_kid hz (hL c (by simp)))]
        rw [e _ fun _ h => h]
        congr 1
        cases st <;> simp [Multiset.filter_singleton]
      · simp [odds_odInner] at hz

theorem sum_le {α : Type} {f g : α → Nat} : ∀ (L : List α), (∀ c ∈ L, f c ≤ g c) → (L.map f).sum ≤ (L.map g).sum
  | [], _ => Nat.le_refl _
  | c :: L, h => by
      simp only [List.map_cons, List.sum_cons]
      exact Nat.add_le_add (h c (by simp)) (sum_le L fun x hx => h x (by simp [hx]))

theorem here_le : ∀ {h : Nat} (q : Pos) (t : Gt K V h), t.odds = 0 → (bun P q t).here ≤ (bun P q t).stored
  | 0, q, t, hz => by
      rcases t.cases0 with ⟨i, d, rfl⟩ | ⟨i, st, l, rfl⟩ | ⟨i, o, l, rfl⟩
      · rw [here_unl q _ rfl]; exact Nat.zero_le _
      · rw [bun_leaf, here_leaf, stored_leaf]
      · simp at hz
  | h + 1, q, t, hz => by
      rcases t.casesS with ⟨i, d, rfl⟩ | ⟨i, st, r, rfl⟩ | ⟨i, o, l, rfl⟩
      · rw [here_unl q _ rfl]; exact Nat.zero_le _
      · rw [bun_inner, B.here_add, B.stored_add, here_inner, stored_inner, kids_sum, here_kids, stored_kids]
        exact Nat.add_le_add_left (sum_le r.kids fun c hc => here_le _ c (odds_kid hz hc)) _
      · simp [odds_odInner] at hz

theorem here_le_kids (i : Id) (L : List (Gt K V h)) (hz : ∀ c ∈ L, c.odds = 0) : (kidsB P i L).here ≤ (kidsB P i L).stored := by
  rw [here_kids, stored_kids]
  exact sum_le L fun c hc => here_le _ c (hz c hc)

theorem visit_here {q : Pos} {t : Gt K V h} {w : World K V} (hI : I P w0 T w ρ (bun P q t + R)) (hl : t.ld = true) :
    ∃ w1, visit P.cmp P.τ false t.id w = (.ok (), w1) ∧ w1.env.gets = w.env.gets ∧ I P w0 T w1 ρ (bun P q t + R) := by
  obtain ⟨w1, e1, h1⟩ := hI.incHits
  have h2 := hI.loaded
  rw [hl] at h2
  have hd := (Dry.incCacheHits P.τ : Dry (incCacheHits P.τ : M K V Unit)).run w
  rw [e1] at hd
  refine ⟨w1, ?_, hd, h1⟩
  unfold visit
  simp only [getN_bind, h2, if_true, Bool.false_eq_true, if_false]
  rw [bind_ok e1]
  rfl

theorem touchNode_away : ∀ {h : Nat} {q : Pos} (t : Gt K V h) {w : World K V} {R : B K V} {fuel c a : Nat}, h < fuel →
    I P w0 T w ρ (bun P q t + R) → t.odds = 0 → t.Clean → Ord P.toCmp t.erase.seq → w.env.gets + (bun P q t + R).stored + a ≤ c + (bun P q t + R).here →
    Res (touchNode P.cmp P.τ fuel t.id w)
      (fun _ w' => ∃ g, (Alike t g ∧ g.st = none) ∧ I P w0 T w' ρ (bun P q g + R) ∧ w'.env.gets + (bun P q g + R).stored + a ≤ c + (bun P q g + R).here)
      (fun _ w' => w'.env.gets + R.stored + a ≤ c + R.here)
  | h, q, t, w, R, 0, c, a, hf, _, _, _, _, _ => by omega
  | h, q, t, w, R, fuel + 1, c, a, hf, hI, hz, hcl, ho, hc => by
      cases hl : t.ld with
      | false =>
        rw [B.here_add, here_unl q t hl, zero_add] at hc
        refine (touchNode_gets t hf hI hz hcl ho (c := c + R.here - a) (by omega)).mono ?_ fun _ _ h => by omega
        rintro _ w' ⟨g, h1, h2, h3⟩
        refine ⟨g, h1, h2, ?_⟩
        rw [B.here_add]
        omega
      | true =>
      unfold touchNode
      obtain ⟨w1, e1, hv, h1⟩ := visit_here hI hl
      rw [bind_ok e1]
      rw [B.stored_add, B.here_add, ← hv] at hc
      have hdry : ∀ {i : Id} {w2 : World K V}, markNodeDirty P.τ i w1 = (.ok (), w2) → w2.env.gets = w1.env.gets := fun {i w2} e => by
        have := (Dry.markNodeDirty P.τ i).run w1
        rw [e] at this
        exact this
      cases h with
      | zero =>
        rcases t.cases0 with ⟨i, d, rfl⟩ | ⟨i, st, l, rfl⟩ | ⟨i, o, l, rfl⟩
        · cases hl
        · rw [bun_leaf, stored_leaf, here_leaf] at hc
          rw [bun_leaf, leafB] at h1
          obtain ⟨w2, e2, h2⟩ := h1.markDirty (c := mkCell P q i st (.leaf l.length l)) rfl
          have e2' : markNodeDirty P.τ i w1 = (.ok (), w2) := e2
          have h3 : I P w0 T w2 ρ (bun P q (.leaf i none l) + R) := by
            refine h2.eq ?_
            rw [bun_leaf, leafB, ownPage_none, add_zero]; rfl
          have hg := hdry e2'
          rw [id_leaf, bind_ok e2', eachChild, getN_bind, h3.isLeaf.leaf]
          refine Res.ok rfl ⟨.leaf i none l, ⟨⟨rfl, rfl, trivial, rfl⟩, rfl⟩, h3, ?_⟩
          rw [bun_leaf, B.stored_add, stored_leaf, B.here_add, here_leaf]
          simp only [Option.isSome_none, Bool.false_eq_true, if_false]
          omega
        · simp at hz
      | succ h =>
        rcases t.casesS with ⟨i, d, rfl⟩ | ⟨i, st, r, rfl⟩ | ⟨i, o, l, rfl⟩
        · cases hl
        · rw [bun_inner, B.stored_add, B.here_add, stored_inner, here_inner, kids_sum] at hc
          rw [bun_inner, innerB, add_assoc] at h1
          obtain ⟨w2, e2, h2⟩ := h1.markDirty (c := mkCell P q i st (r.map Gt.kid).body) rfl
          have e2' : markNodeDirty P.τ i w1 = (.ok (), w2) := e2
          have hg := hdry e2'
          have hw : I P w0 T w2 ρ (innerB P q i none (r.map Gt.kid) + (kidsB P i r.kids + R)) := by
            refine h2.eq ?_
            rw [innerB, ownPage_none, add_zero]; rfl
          have hw' : w2.env.gets + (innerB P q i none (r.map Gt.kid) + (kidsB P i r.kids + R) : B K V).stored + a ≤
              c + (innerB P q i none (r.map Gt.kid) + (kidsB P i r.kids + R) : B K V).here := by
            simp only [B.stored_add, B.here_add, stored_inner, here_inner, Option.isSome_none, Bool.false_eq_true, if_false]
            omega
          have hcc := hcl
          rw [Clean_inner] at hcc
          have hck : ∀ c ∈ r.kids, c.Clean ∧ c.odds = 0 := fun c hc => ⟨(hcc c hc).1, odds_kid hz hc⟩
          rw [erase_inner] at ho
          have hok : ∀ c ∈ r.kids, Ord P.toCmp c.erase.seq := fun c hc => ho.kid (by simpa using ⟨c, hc, rfl⟩)
          have haN : ∀ {g}, Alike (.inner i none r) g → Alike (.inner i st r) g := fun h => ⟨h.id, h.erase, h.clean, h.odds⟩
          rw [id_inner, bind_ok e2']
          refine (eachChild_walk2 (A := fun R w => I P w0 T w ρ R ∧ w.env.gets + R.stored + a ≤ c + R.here) (A' := fun _ R w => w.env.gets + R.stored + a ≤ c + R.here) (P := P)
            (fun h => h.1.cell) (bun P (Pos.child i)) (fun _ : Unit => (0 : B K V))
            (Q := fun t g => Alike t g ∧ g.st = none) (E := fun _ _ _ => True)
            (κ := r.map Gt.kid) (L := r.kids) (by simp) 2557
            (f := touchNode P.cmp P.τ fuel) ?_ ⟨hw, hw'⟩).mono ?_ ?_
          · rintro k hk R w ⟨hI, hb⟩
            exact (touchNode_away k (by omega) hI (hck k hk).2 (hck k hk).1 (hok k hk) hb).mono (fun _ _ h => h) (fun _ _ h => ⟨(), trivial, by rw [zero_add]; exact h⟩)
          · rintro _ w' ⟨L, hL, hI', hb⟩
            obtain ⟨r', a1, a2, a3⟩ := Alike.row (i := i) (forall₂_imp hL fun _ _ _ h => h.1)
            refine ⟨.inner i none r', ⟨haN a2, rfl⟩, ?_, ?_⟩
            · rw [bun_inner, a3, a1, add_assoc]; exact hI'
            · rw [bun_inner, a3, a1, add_assoc (innerB P q i none _)]; exact hb
          · rintro e w' ⟨pre, k, post, as, g, hL, hQ, -, h⟩
            have k1 := here_le_kids (P := P) i as fun x hx => by
              obtain ⟨y, -, y2⟩ := forall₂_right hQ hx
              exact y2.1.odds
            have k2 := here_le_kids (P := P) i post fun x hx => (hck x (by rw [hL]; simp [hx])).2
            rw [kids_sum] at h
            simp only [add_zero, B.stored_add, B.here_add, stored_inner, here_inner, Option.isSome_none, Bool.false_eq_true, if_false] at h
            omega
        · simp [odds_odInner] at hz

theorem discardNode_away : ∀ {h : Nat} {q : Pos} (t : Gt K V h) {w : World K V} {R : B K V} {fuel c a : Nat}, h < fuel →
    I P w0 T w ρ (bun P q t + R) → t.odds = 0 → Ord P.toCmp t.erase.seq → w.env.gets + (bun P q t + R).stored + a ≤ c + (bun P q t + R).here →
    Res (discardNode P.cmp P.τ fuel t.id w)
      (fun _ w' => I P w0 T w' ρ R ∧ w'.env.gets + R.stored + a ≤ c + R.here)
      (fun _ w' => w'.env.gets + R.stored + a ≤ c + R.here)
  | h, q, t, w, R, 0, c, a, hf, _, _, _, _ => by omega
  | h, q, t, w, R, fuel + 1, c, a, hf, hI, hz, ho, hc => by
      cases hl : t.ld with
      | false =>
        rw [B.here_add, here_unl q t hl, zero_add] at hc
        exact (discardNode_gets t hf hI hz ho (c := c + R.here - a) (by omega)).mono (fun _ _ h => ⟨h.1, by omega⟩) fun _ _ h => by omega
      | true =>
      unfold discardNode
      obtain ⟨w1, e1, hv, h1⟩ := visit_here hI hl
      rw [bind_ok e1]
      rw [B.stored_add, B.here_add, ← hv] at hc
      have hdry : ∀ {i : Id} {w1 w2 : World K V}, markNodeToBeDiscarded P.τ i w1 = (.ok (), w2) → w2.env.gets = w1.env.gets := fun {i w1 w2} e => by
        have := (Dry.markNodeToBeDiscarded P.τ i).run w1
        rw [e] at this
        exact this
      cases h with
      | zero =>
        rcases t.cases0 with ⟨i, d, rfl⟩ | ⟨i, st, l, rfl⟩ | ⟨i, o, l, rfl⟩
        · cases hl
        · rw [id_leaf]
          have e1 : eachChild 1123 i (discardNode P.cmp P.τ fuel) w1 = (.ok (), w1) := by
            rw [eachChild, getN_bind, h1.isLeaf.leaf]; rfl
          rw [bind_ok e1]
          rw [bun_leaf, stored_leaf, here_leaf] at hc
          rw [bun_leaf, leafB] at h1
          obtain ⟨w2, e2, h2⟩ := h1.markDiscard (c := mkCell P q i st (.leaf l.length l)) rfl
          have hg := hdry e2
          rw [add_assoc] at h2
          exact Res.ok e2 ⟨h2.forget.forgetOff, by omega⟩
        · simp at hz
      | succ h =>
        rcases t.casesS with ⟨i, d, rfl⟩ | ⟨i, st, r, rfl⟩ | ⟨i, o, l, rfl⟩
        · cases hl
        · have hw : I P w0 T w1 ρ (innerB P q i st (r.map Gt.kid) + (kidsB P i r.kids + R)) := by
            rw [bun_inner, add_assoc] at h1; exact h1
          have hw' : w1.env.gets + (innerB P q i st (r.map Gt.kid) + (kidsB P i r.kids + R) : B K V).stored + a ≤
              c + (innerB P q i st (r.map Gt.kid) + (kidsB P i r.kids + R) : B K V).here := by
            rw [bun_inner, B.stored_add, B.here_add, kids_sum] at hc
            simp only [B.stored_add, B.here_add]
            omega
          rw [erase_inner] at ho
          have hok : ∀ c ∈ r.kids, Ord P.toCmp c.erase.seq := fun c hc => ho.kid (by simpa using ⟨c, hc, rfl⟩)
          rw [id_inner]
          have e0 : ∀ L : List Unit, ((L.map fun _ : Unit => (0 : B K V)).sum) = 0 := fun L => List.sum_eq_zero (by
            intro o ho
            obtain ⟨x, hx, rfl⟩ := List.mem_map.1 ho
            rfl)
          refine (eachChild_walk2 (A := fun R w => I P w0 T w ρ R ∧ w.env.gets + R.stored + a ≤ c + R.here)
            (A' := fun _ R w => w.env.gets + R.stored + a ≤ c + R.here) (P := P) (fun h => h.1.cell) (fun _ : Unit => (0 : B K V)) (fun _ : Unit => (0 : B K V))
            (Q := fun _ _ => True) (E := fun _ _ _ => True)
            (κ := r.map Gt.kid) (L := r.kids) (by simp) 1123
            (f := discardNode P.cmp P.τ fuel) ?_ ⟨hw, hw'⟩).bind ?_ ?_
          · rintro k hk R w ⟨hI, hb⟩
            exact (discardNode_away k (by omega) hI (odds_kid hz hk) (hok k hk) hb).mono (fun _ _ h => ⟨(), trivial, by rw [zero_add]; exact h⟩)
              (fun _ _ h => ⟨(), trivial, by rw [zero_add]; exact h⟩)
          · rintro e w' ⟨pre, k, post, as, g, hL, -, -, h⟩
            have k2 := here_le_kids (P := P) i post fun x hx => odds_kid hz (by rw [hL]; simp [hx])
            rw [e0, zero_add, zero_add] at h
            simp only [B.stored_add, B.here_add, stored_inner, here_inner] at h
            omega
          · rintro _ w' ⟨L, hL, hI', hb⟩
            rw [e0, zero_add, B.stored_add, stored_inner, B.here_add, here_inner] at hb
            rw [e0, zero_add, innerB] at hI'
            obtain ⟨w2, e2, h2⟩ := hI'.markDiscard (c := mkCell P q i st (r.map Gt.kid).body) rfl
            have hg := hdry e2
            rw [add_assoc] at h2
            exact Res.ok e2 ⟨h2.forget.forgetOff, by omega⟩
        · simp [odds_odInner] at hz

/-- `Touch`: what is read and what is in memory without changes are together no more than what is stored. -/
theorem Rest.touchAway {g : Gt K V H} {w : World K V} {fuel : Nat} (hr : Rest P w0 T R g w) (hf : H < fuel) :
    (touch P.cmp P.τ fuel w).2.env.gets + Multiset.card (g.mem.filter fun p => p.2 = false) ≤ w.env.gets + Multiset.card (bun P ⟨none, true⟩ g).2.2.1 := by
  rw [← here_mem (P := P) ⟨none, true⟩ g hr.odds]
  change _ ≤ w.env.gets + (bun P ⟨none, true⟩ g).stored
  unfold touch
  rw [bind_ok hr.root]
  have h0 := touchNode_away g hf hr.I hr.odds hr.clean hr.ord (Nat.le_of_eq (Nat.add_right_cancel_iff.2 rfl))
  simp only [B.stored_add, B.here_add] at h0
  rcases h0.cases with ⟨a, w1, e1, g', hg, -, h⟩ | ⟨e, w1, e1, h⟩
  · rw [e1]
    have := here_le (P := P) ⟨none, true⟩ g' hg.1.odds
    simp only
    omega
  · rw [e1]
    simp only
    omega

/-- `Discard` -/
theorem Rest.discardAway {g : Gt K V H} {w : World K V} {fuel : Nat} (hr : Rest P w0 T R g w) (hf : H < fuel) :
    (discard P.cmp P.τ fuel w).2.env.gets + Multiset.card (g.mem.filter fun p => p.2 = false) ≤ w.env.gets + Multiset.card (bun P ⟨none, true⟩ g).2.2.1 := by
  rw [← here_mem (P := P) ⟨none, true⟩ g hr.odds]
  change _ ≤ w.env.gets + (bun P ⟨none, true⟩ g).stored
  unfold discard
  rw [bind_ok hr.root]
  have hd : Dry (do pruneWhileLocked P.τ; modT P.τ fun t => { t with root := none, stale := [], cached := false } : M K V Unit) :=
    .bind (dry_prune P.τ) fun _ => .modT _ _
  have h0 := discardNode_away g hf hr.I hr.odds hr.ord (Nat.le_of_eq (Nat.add_right_cancel_iff.2 rfl))
  simp only [B.stored_add, B.here_add] at h0
  rcases h0.cases with ⟨a, w1, e1, -, h⟩ | ⟨e, w1, e1, h⟩
  · rw [bind_ok (attempt_ok e1)]
    exact (Nat.add_le_add_right (hd.run w1).le _).trans (by omega)
  · rw [bind_ok (attempt_err e1)]
    exact (Nat.add_le_add_right (hd.run w1).le _).trans (by omega)

end
end SM.BT

import Verif.BTree.Walk

/-! Purge, Flush, Touch, Discard, Prune. -/

namespace SM.BT

open Spec (at? below above find has rejects Agrees AgreesE Refused stepE Op Ans)

variable {K V : Type}

section
variable {P : Par K} {w0 : World K V} {T : Tot K V} {w : World K V} {ρ : Option Id}
  {R R' : B K V} {c c' : Cell K V} {h H : Nat}

/-! ### Eviction -/

theorem I.evicted {x : Id} {d : Bool} (h : I P w0 T w ρ (lruB P.ca x d + R)) :
    ∃ w', markNodeEvicted P.τ x w = (.ok (), w') ∧ I P w0 T w' ρ (offB x + R) := by
  obtain ⟨s, h1, h2⟩ := drop_run h.cached (Cache.lru h rfl)
  refine ⟨_, h1, h.step (Calm.lru _ _ _) ?_ ?_ rfl⟩
  · simpa using h.st.same (w' := w.setL s) rfl rfl rfl
  · have := h.lru
    simp only [Prod.fst_add, Prod.snd_add, lruB_2, offB_2] at this ⊢
    exact this.upd (le_refl _) (by simpa [live] using h2)

theorem evict_leaf {q : Pos} {i : Id} {ref : Ref} {l : List (K × V)} (hI : I P w0 T w ρ (bun P q (.leaf i (some ref) l) + R)) :
    ∃ w', evict P.τ i w = (.ok (), w') ∧ I P w0 T w' ρ (bun P q (.unl i (.leaf ref l)) + R) := by
  rw [bun_leaf, leafB] at hI
  obtain ⟨w1, e1, h1⟩ := (hI.eq (R' := lruB P.ca i false + (cellB (mkCell P q i (some ref) (.leaf l.length l)) +
    ownPage (some ref) (mkDisk P q.root l.length (.leaf l)) + R)) (by simp only [Option.isNone_some]; abel)).evicted
  have h2 := h1.eq (R' := cellB (mkCell P q i (some ref) (.leaf l.length l)) + (offB i +
    ownPage (some ref) (mkDisk P q.root l.length (.leaf l)) + R)) (by abel)
  obtain ⟨w2, e2, h3⟩ := h2.modN (f := fun n => { n with kv := none, left := none, psRoot := none, loaded := false })
    (mkCell P q i (some ref) (.unl l.length)) rfl rfl (fun n hn => ⟨hn.tree, hn.parent, hn.root, hn.ref, hn.dirty, ⟨rfl, hn.body.2.2.1⟩⟩)
  refine ⟨w2, by rw [evict, bind_ok e1]; exact e2, h3.eq ?_⟩
  rw [bun_unl, pages_leaf, ref_dleaf, cnt_dleaf]
  show _ = _ + _ + pageB _ + _
  simp only [ownPage_some]
  abel

/-- Children that are not loaded. -/
theorem unl_row {r : Row K (Gt K V h)} (hu : ∀ c ∈ r.kids, c.ld = false) :
    ∃ rd : Row K (Dt K V h), List.Forall₂ (fun (c : Gt K V h) (d : Dt K V h) => c = .unl c.id d) r.kids rd.kids ∧
      rd.cs.map Prod.fst = r.cs.map Prod.fst := by
  have : ∀ L : List (Gt K V h), (∀ c ∈ L, c.ld = false) → ∃ ds, List.Forall₂ (fun (c : Gt K V h) (d : Dt K V h) => c = .unl c.id d) L ds := by
    intro L
    induction L with
    | nil => exact fun _ => ⟨[], .nil⟩
    | cons c L ih =>
      intro hc
      obtain ⟨ds, hds⟩ := ih fun c h => hc c (by simp [h])
      have := hc c (by simp)
      cases c with
      | unl i d => exact ⟨d :: ds, .cons rfl hds⟩
      | ld i st x => cases this
      | od i o x => cases this
  obtain ⟨ds, hds⟩ := this r.kids hu
  obtain ⟨rd, h1, h2⟩ := r.refill (L := ds) hds.length_eq.symm
  exact ⟨rd, h1 ▸ hds, h2⟩

theorem forall₂_map {α β γ : Type} {S : α → β → Prop} {f : α → γ} {g : β → γ} {a : List α} {b : List β} (h : List.Forall₂ S a b)
    (hs : ∀ x y, S x y → f x = g y) : a.map f = b.map g := by
  induction h with
  | nil => rfl
  | cons h _ ih => simp [hs _ _ h, ih]

theorem Row.disk_congr {r s : Row K Kid} (h1 : r.kids.map Kid.disk = s.kids.map Kid.disk) (h2 : r.cs.map Prod.fst = s.cs.map Prod.fst) :
    (r.disk : DiskBody K V) = s.disk := by
  rcases r with ⟨a, l⟩; rcases s with ⟨b, m⟩
  simp only [Row.kids, List.map_cons, List.cons.injEq, List.map_map] at h1
  simp only [Row.disk, DiskBody.inner.injEq]
  refine ⟨h1.1, list_fs ?_ ?_⟩
  · simpa [Function.comp_def] using h2
  · simpa [Function.comp_def] using h1.2

theorem Row.total_congr {r s : Row K Kid} (h1 : r.kids.map Kid.disk = s.kids.map Kid.disk) : r.total = s.total := by
  have := congrArg (fun l => (l.map Prod.snd).sum) h1
  simpa [Row.total, Function.comp_def, Kid.disk] using this

/-- Structs that nothing refers to any more. -/
def ghosts (P : Par K) (j : Id) : List (Gt K V h) → B K V
  | [] => 0
  | c :: X => cellB (mkCell P (Pos.child j) c.id c.st (.unl c.cnt)) + offB c.id + ghosts P j X

theorem ghosts_pages (j : Id) (X : List (Gt K V h)) : (ghosts P j X).2.2.1 = 0 := by
  induction X with
  | nil => rfl
  | cons c X ih => simp [ghosts, ih]

theorem I.forgetGhosts {j : Id} : ∀ {X : List (Gt K V h)}, I P w0 T w ρ (ghosts P j X + R) → I P w0 T w ρ R
  | [], hI => by simpa [ghosts] using hI
  | c :: X, hI => by
      rw [ghosts, add_assoc, add_assoc] at hI
      exact hI.forget.forgetOff.forgetGhosts

theorem evict_inner {q : Pos} {i : Id} {ref : Ref} {r : Row K (Gt K V h)} (hu : ∀ c ∈ r.kids, c.ld = false)
    (hI : I P w0 T w ρ (bun P q (.inner i (some ref) r) + R)) :
    ∃ (w' : World K V) (d : Dt K V (h + 1)), evict P.τ i w = (.ok (), w') ∧ Sim P (.inner i (some ref) r) (.unl i d) ∧
      I P w0 T w' ρ (bun P q (.unl i d) + R) := by
  obtain ⟨rd, hr1, hr2⟩ := unl_row hu
  have k1 : r.kids.map (fun c => c.kid.disk) = rd.kids.map (fun d => d.kid.disk) := forall₂_map hr1 (by
    intro c d h; rw [h]; simp [Gt.kid, Dt.kid, Kid.disk])
  have k2 : r.kids.map Gt.erase = rd.kids.map Dt.erase := forall₂_map hr1 (by intro c d h; rw [h]; simp)
  have k3 : ∀ j : Id, (r.kids.map (bun P (Pos.child j))).sum = ghosts P j r.kids + pagesB (rd.kids.map (Dt.pages P false)).sum := by
    intro j
    clear k1 k2 hr2 hu hI
    generalize r.kids = X at hr1 ⊢; generalize rd.kids = Y at hr1 ⊢
    induction hr1 with
    | nil => rfl
    | @cons c d X Y hcd _ ih =>
      simp only [List.map_cons, List.sum_cons, ih, pagesB_add, ghosts]
      rw [hcd, bun_unl]
      simp only [id_unl, st_unl, cnt_unl, Pos.child]
      abel
  have k4 : (r.kids.map Gt.cnt).sum = (rd.kids.map Dt.cnt).sum := by
    have := congrArg (fun l => (l.map Prod.snd).sum) k1
    simpa [Function.comp_def, Kid.disk, Gt.kid, Dt.kid] using this
  have kd : ((r.map Gt.kid).kids.map Kid.disk) = ((rd.map Dt.kid).kids.map Kid.disk) := by simpa [Function.comp_def] using k1
  have kdisk : ((r.map Gt.kid).disk : DiskBody K V) = (rd.map Dt.kid).disk := Row.disk_congr kd (by rw [Row.keys_map, Row.keys_map, hr2])
  have ktot : (r.map Gt.kid).total = (rd.kids.map Dt.cnt).sum := by
    rw [Row.total_congr kd]; simp [Row.total, Function.comp_def, Dt.kid]
  have hsim : Sim P (.inner i (some ref) r) (.unl i (.inner ref rd)) := by
    refine ⟨rfl, rfl, ?_, fun _ => by simp, ?_, fun q => ?_⟩
    · rw [erase_unl, erase_dinner, erase_inner]
      congr 1
      exact Row.ext' (by rw [Row.kids_map, Row.kids_map, k2]) (by rw [Row.keys_map, Row.keys_map, hr2])
    · rw [odds_unl, odds_inner]
      refine (List.sum_eq_zero ?_).symm
      intro o ho
      obtain ⟨c, hc, rfl⟩ := List.mem_map.1 ho
      have := hu c hc
      cases c with
      | unl i d => exact odds_unl i d
      | ld i st x => cases this
      | od i o x => cases this
    · rw [bun_inner, bun_unl, k3, innerB, pages_inner, kdisk, ktot]
      simp [ghosts_pages]
  rw [bun_inner, innerB, k3, kdisk, ktot] at hI
  have h0 := hI.eq (R' := ghosts P i r.kids + (cellB (mkCell P q i (some ref) (r.map Gt.kid).body) + (lruB P.ca i false +
      pageB (ref, mkDisk P q.root (rd.kids.map Dt.cnt).sum (rd.map Dt.kid).disk) + pagesB (rd.kids.map (Dt.pages P false)).sum + R))) (by
      simp only [ownPage_some, Option.isNone_some]; abel)
  have h1 := h0.forgetGhosts.open rfl
  have h2 := h1.eq (R' := slotB _ + (cellB _ + (lruB P.ca i false +
      pageB (ref, mkDisk P q.root (rd.kids.map Dt.cnt).sum (rd.map Dt.kid).disk) + pagesB (rd.kids.map (Dt.pages P false)).sum + R)))
      (by rw [add_comm (cellB _) (slotB _), add_assoc])
  have h3 := h2.forgetSlot
  rw [mkCell_with] at h3
  obtain ⟨w1, e1, h4⟩ := (h3.eq (R' := lruB P.ca i false + (cellB _ + (pageB (ref, mkDisk P q.root (rd.kids.map Dt.cnt).sum (rd.map Dt.kid).disk) +
    pagesB (rd.kids.map (Dt.pages P false)).sum + R))) (by abel)).evicted
  have h5 := h4.eq (R' := cellB _ + (offB i + pageB (ref, mkDisk P q.root (rd.kids.map Dt.cnt).sum (rd.map Dt.kid).disk) +
    pagesB (rd.kids.map (Dt.pages P false)).sum + R)) (by abel)
  obtain ⟨w2, e2, h6⟩ := h5.modN (f := fun n => { n with kv := none, left := none, psRoot := none, loaded := false })
    (mkCell P q i (some ref) (.unl (rd.kids.map Dt.cnt).sum)) rfl rfl (fun n hn => ⟨hn.tree, hn.parent, hn.root, hn.ref, hn.dirty, ⟨rfl, hn.body.2.2.1.trans ktot⟩⟩)
  refine ⟨w2, _, by rw [evict, bind_ok e1]; exact e2, hsim, h6.eq ?_⟩
  rw [bun_unl, pages_inner, ref_dinner, cnt_dinner, pagesB_cons]
  abel

/-! ### Purge -/

theorem forall₂_imp {α β : Type} {S S' : α → β → Prop} {a : List α} {b : List β} (h : List.Forall₂ S a b)
    (hs : ∀ x y, x ∈ a → S x y → S' x y) : List.Forall₂ S' a b := by
  induction h with
  | nil => exact .nil
  | cons h _ ih => exact .cons (hs _ _ (by simp) h) (ih fun x y hx => hs x y (by simp [hx]))

theorem forall₂_right {α β : Type} {S : α → β → Prop} {a : List α} {b : List β} (h : List.Forall₂ S a b) {y : β} (hy : y ∈ b) :
    ∃ x ∈ a, S x y := by
  induction h with
  | nil => cases hy
  | cons h _ ih =>
    rcases List.mem_cons.1 hy with rfl | hy
    · exact ⟨_, by simp, h⟩
    · obtain ⟨x, h1, h2⟩ := ih hy
      exact ⟨x, by simp [h1], h2⟩

theorem forall₂_left {α β : Type} {S : α → β → Prop} {a : List α} {b : List β} (h : List.Forall₂ S a b) {x : α} (hx : x ∈ a) :
    ∃ y ∈ b, S x y := by
  induction h with
  | nil => cases hx
  | cons h _ ih =>
    rcases List.mem_cons.1 hx with rfl | hx
    · exact ⟨_, by simp, h⟩
    · obtain ⟨y, h1, h2⟩ := ih hx
      exact ⟨y, by simp [h1], h2⟩

theorem kids_sum (P : Par K) (i : Id) (L : List (Gt K V h)) : (L.map (bun P (.child i))).sum = kidsB P i L := rfl

/-- No node of the tree came into the cache. -/
def Less (P : Par K) (t g : Gt K V h) : Prop := ∀ q, live (bun P q g).2.1 ≤ live (bun P q t).2.1

theorem Less.unl {t : Gt K V h} {i : Id} {d : Dt K V h} : Less P t (.unl i d) := by
  intro q
  rw [bun_unl]
  simp [cellB, pagesB, live_off, Multiset.zero_le]

theorem Less.row {i : Id} {st : Option Ref} {r r' : Row K (Gt K V h)} (hL : List.Forall₂ (Less P) r.kids r'.kids) :
    Less P (.inner i st r) (.inner i st r') := by
  intro q
  rw [bun_inner, bun_inner]
  simp only [innerB, Prod.snd_add, Prod.fst_add, live_add, cellB_2, zero_add]
  refine add_le_add (le_of_eq (by cases st <;> rfl)) ?_
  generalize r.kids = X at hL ⊢; generalize r'.kids = Y at hL ⊢
  induction hL with
  | nil => simp
  | cons h _ ih => simp only [List.map_cons, List.sum_cons, Prod.snd_add, Prod.fst_add, live_add]; exact add_le_add (h _) ih

theorem Gt.unl_st (t : Gt K V h) (hl : t.ld = false) : t.st.isSome := by
  cases t <;> simp_all [Gt.ld, Gt.st]

/-- The nodes in memory, and whether they are dirty. -/
def Gt.mem : {h : Nat} → Gt K V h → Multiset (Id × Bool)
  | _, Nd.unl _ _ => 0
  | 0, Nd.ld i st _ => {(i, st.isNone)}
  | h + 1, Nd.ld i st r => {(i, st.isNone)} + ((@_root_.id (Row K (Gt K V h)) r).kids.map Gt.mem).sum
  | 0, Nd.od i _ _ => {(i, true)}
  | h + 1, Nd.od i _ r => {(i, true)} + ((@_root_.id (Row K (Gt K V h)) r).kids.map Gt.mem).sum

theorem mem_ofUnl {t : Gt K V h} (hl : t.ld = false) : t.mem = 0 := by
  cases h with
  | zero =>
    rcases t.cases0 with ⟨i, d, rfl⟩ | ⟨i, st, l, rfl⟩ | ⟨i, o, l, rfl⟩
    · rfl
    · simp at hl
    · simp at hl
  | succ h =>
    rcases t.casesS with ⟨i, d, rfl⟩ | ⟨i, st, r, rfl⟩ | ⟨i, o, l, rfl⟩
    · rfl
    · simp at hl
    · simp at hl

theorem mem_inner (i : Id) (st : Option Ref) (r : Row K (Gt K V h)) : (Gt.inner i st r).mem = {(i, st.isNone)} + (r.kids.map Gt.mem).sum := rfl

/-- Of the nodes in memory the dirty ones are still there, and no others. -/
def Kept (t g : Gt K V h) : Prop := g.mem = t.mem.filter fun p => p.2 = true

theorem clean_mem : ∀ {h : Nat} (t : Gt K V h), t.odds = 0 → t.Clean → t.st.isSome → (t.mem.filter fun p => p.2 = true) = 0
  | 0, t, hz, _, hs => by
      rcases t.cases0 with ⟨i, d, rfl⟩ | ⟨i, st, l, rfl⟩ | ⟨i, o, l, rfl⟩
      · rfl
      · cases st with
        | none => cases hs
        | some r => rfl
      · simp at hz
  | h + 1, t, hz, hc, hs => by
      rcases t.casesS with ⟨i, d, rfl⟩ | ⟨i, st, r, rfl⟩ | ⟨i, o, l, rfl⟩
      · rfl
      · cases st with
        | none => cases hs
        | some ref =>
          rw [Clean_inner] at hc
          have ih : ∀ c ∈ r.kids, (c.mem.filter fun p => p.2 = true) = 0 := fun c hcm => clean_mem c (odds_kid hz hcm) (hc c hcm).1 ((hc c hcm).2 rfl)
          rw [mem_inner, Multiset.filter_add]
          generalize r.kids = L at ih
          induction L with
          | nil => rfl
          | cons c L hL =>
            rw [List.map_cons, List.sum_cons, Multiset.filter_add, ih c (by simp), zero_add]
            exact hL fun c hc => ih c (by simp [hc])
      · simp [odds_odInner] at hz

theorem Kept.unl {t : Gt K V h} {i : Id} {d : Dt K V h} (hz : t.odds = 0) (hc : t.Clean) (hs : t.st.isSome) : Kept t (.unl i d) := by
  rw [Kept, clean_mem t hz hc hs, mem_ofUnl rfl]

theorem Kept.row {i : Id} {r r' : Row K (Gt K V h)} (hL : List.Forall₂ Kept r.kids r'.kids) : Kept (.inner i none r) (.inner i none r') := by
  rw [Kept, mem_inner, mem_inner, Multiset.filter_add]
  refine congrArg₂ (· + ·) rfl ?_
  generalize r.kids = X at hL ⊢; generalize r'.kids = Y at hL ⊢
  induction hL with
  | nil => rfl
  | cons h _ ih => rw [List.map_cons, List.sum_cons, List.map_cons, List.sum_cons, Multiset.filter_add, ih, h]

/-- `purgeNode`: a clean node goes; a dirty one stays, or is complained about. -/
theorem purgeNode_run (full : Bool) : ∀ {h : Nat} {q : Pos} (t : Gt K V h) {w : World K V} {R : B K V} {fuel : Nat}, h < fuel →
    I P w0 T w ρ (bun P q t + R) → t.odds = 0 → t.Clean →
    Res (purgeNode P.τ full fuel t.id w)
      (fun _ w' => (full = true → t.st.isSome) ∧ ∃ g, Sim P t g ∧ (t.st.isSome → g.ld = false) ∧ (Less P t g ∧ Kept t g) ∧ I P w0 T w' ρ (bun P q g + R))
      (fun e w' => e = .logic 1939 ∧ full = true ∧ t.st = none ∧ w' = w)
  | h, q, t, w, R, 0, hf, _, _, _ => by omega
  | h, q, t, w, R, fuel + 1, hf, hI, hz, hcl => by
      obtain ⟨-, -, -, -, hd⟩ := hI.head hz
      unfold purgeNode
      rw [getN_bind, hI.loaded, hd]
      cases hl : t.ld with
      | false => exact Res.ok rfl ⟨fun _ => t.unl_st hl, t, .refl t, fun _ => hl, ⟨fun _ => le_refl _, by rw [Kept, mem_ofUnl hl]; rfl⟩, hI⟩
      | true =>
        rw [if_neg (by simp)]
        cases hfd : (full && t.st.isNone) with
        | true =>
          rw [if_pos rfl]
          simp only [Bool.and_eq_true, Option.isNone_iff_eq_none] at hfd
          exact Res.err rfl ⟨rfl, hfd.1, hfd.2, rfl⟩
        | false =>
          rw [if_neg (by simp)]
          have hfs : full = true → t.st.isSome := by rintro rfl; cases hst : t.st <;> simp_all
          refine Res.mono (Q := fun _ w' => ∃ g, Sim P t g ∧ (t.st.isSome → g.ld = false) ∧ (Less P t g ∧ Kept t g) ∧ I P w0 T w' ρ (bun P q g + R)) ?_ (fun _ _ h => ⟨hfs, h⟩) (fun _ _ h => h)
          cases h with
          | zero =>
            rcases t.cases0 with ⟨i, d, rfl⟩ | ⟨i, st, l, rfl⟩ | ⟨i, o, l, rfl⟩
            · cases hl
            · have e1 : eachChild 1964 i (purgeNode P.τ full fuel) w = (.ok (), w) := by
                rw [eachChild, getN_bind, hI.isLeaf.leaf]; rfl
              simp only [id_leaf, st_leaf] at hd hfd ⊢
              rw [bind_ok e1, getN_bind, hd]
              cases st with
              | none => exact Res.ok rfl ⟨_, .refl _, by simp, ⟨fun _ => le_refl _, rfl⟩, hI⟩
              | some ref =>
                obtain ⟨w2, e2, h2⟩ := evict_leaf hI
                refine Res.ok e2 ⟨.unl i (.leaf ref l), ⟨rfl, rfl, by simp, by simp, by simp, fun q => ?_⟩, by simp, ⟨.unl, .unl hz hcl rfl⟩, h2⟩
                rw [bun_unl, bun_leaf, leafB, pages_leaf]; simp
            · simp at hz
          | succ h =>
            rcases t.casesS with ⟨i, d, rfl⟩ | ⟨i, st, r, rfl⟩ | ⟨i, o, l, rfl⟩
            · cases hl
            · simp only [id_inner, st_inner] at hd hfd ⊢
              rw [Clean_inner] at hcl
              have hw := hI
              rw [bun_inner, kids_sum, add_assoc] at hw
              refine (eachChild_walk (A := fun R w => I P w0 T w ρ R) (P := P) (fun h => h.cell) (bun P (Pos.child i)) (fun _ : Unit => 0)
                (Q := fun t g => Sim P t g ∧ (t.st.isSome → g.ld = false) ∧ Less P t g ∧ Kept t g) (E := fun _ _ _ => False) (κ := r.map Gt.kid) (L := r.kids) (by simp) 1964
                (f := purgeNode P.τ full fuel) ?_ hw).bind ?_ ?_
              · intro c hc R w hI
                have hcz := odds_kid hz hc
                refine (purgeNode_run full c (by omega) hI hcz (hcl c hc).1).mono ?_ ?_
                · rintro _ w' ⟨-, g, g1, g2, g2', g3⟩; exact ⟨g, ⟨g1, g2, g2'⟩, g3⟩
                · rintro e w' ⟨-, g1, g2, -⟩
                  subst g1
                  have := (hcl c hc).2 (by cases st <;> simp_all)
                  simp [g2] at this
              · rintro e w' ⟨_, _, _, _, _, _, _, h, _⟩; exact h.elim
              · rintro _ w' ⟨L, hL, hI'⟩
                obtain ⟨r', a1, a2, a3⟩ := Sim.row (i := i) (st := st) (forall₂_imp hL fun _ _ _ h => h.1)
                have hI2 : I P w0 T w' ρ (bun P q (.inner i st r') + R) := by
                  rw [bun_inner, a1, a2, add_assoc]; exact hI'
                have hd' := (hI2.head (by rw [a3.odds]; exact hz)).2.2.2.2
                rw [id_inner, st_inner] at hd'
                rw [getN_bind, hd']
                cases st with
                | none => exact Res.ok rfl ⟨_, a3, by simp, ⟨.row (a1 ▸ forall₂_imp hL fun _ _ _ h => h.2.2.1), .row (a1 ▸ forall₂_imp hL fun _ _ _ h => h.2.2.2)⟩, hI2⟩
                | some ref =>
                  obtain ⟨w2, d, e2, s2, h2⟩ := evict_inner (r := r') (by
                    rw [a1]
                    intro c hc
                    obtain ⟨x, x1, x2⟩ := forall₂_right hL hc
                    exact x2.2.1 ((hcl x x1).2 rfl)) hI2
                  exact Res.ok e2 ⟨_, a3.trans s2, by simp, ⟨.unl, .unl hz (by rw [Clean_inner]; exact hcl) rfl⟩, h2⟩
            · simp [odds_odInner] at hz

/-- `Purge` -/
theorem purge_run {g : Gt K V H} (hr : Rest P w0 T R g w) {fuel : Nat} (hf : H < fuel) (full : Bool) :
    Res (purge P.τ fuel full w) (fun _ w' => (full = true → g.st.isSome) ∧ ∃ g', Sim P g g' ∧ (g.st.isSome → g'.ld = false) ∧ (Less P g g' ∧ Kept g g') ∧ Rest P w0 T R g' w')
      (fun e w' => e = .logic 1939 ∧ full = true ∧ g.st = none ∧ w' = w) := by
  rw [purge, bind_ok hr.root]
  refine (purgeNode_run full g hf hr.I hr.odds hr.clean).mono ?_ (fun e w h => h)
  rintro _ w' ⟨h0, g', h1, h2, h4, h3⟩
  exact ⟨h0, g', h1, h2, h4, hr.sim h1 h3⟩

/-! ### Writing nodes -/

/-- From `w0` to `w` the nodes `N` were written, to places that were free, and nothing else happened to the disk; `k` more
calls of PutNode failed. -/
structure Grows (τ : TreeId) (w0 w : World K V) (N : Multiset (Ref × DiskNode K V)) (k : Nat) : Prop extends Evo τ w0 w where
  tree : w.trees τ = w0.trees τ
  log : w.log = w0.log
  discards : w.env.discards = w0.env.discards
  puts : w.env.puts = w0.env.puts + Multiset.card N + k
  keep : ∀ r, r ∉ N.map Prod.fst → w.disk r = w0.disk r
  fresh : ∀ p ∈ N, w0.disk p.1 = none ∧ w.disk p.1 = some p.2

theorem Calm.grows {τ : TreeId} {w w' : World K V} (h : Calm τ w w') : Grows τ w w' 0 0 :=
  ⟨h.toEvo, h.tree, h.log, h.discards, by simp [h.puts], fun r _ => by rw [h.disk], by simp⟩

theorem Grows.calm {τ : TreeId} {w w' : World K V} (h : Grows τ w w' 0 0) : Calm τ w w' :=
  ⟨⟨h.toEvo, funext fun r => h.keep r (by simp), h.log, by simpa using h.puts, h.discards⟩, h.tree⟩

theorem Grows.trans {τ : TreeId} {a b c : World K V} {N M : Multiset (Ref × DiskNode K V)} {k l : Nat} (h : Grows τ a b N k) (g : Grows τ b c M l) :
    Grows τ a c (N + M) (k + l) := by
  refine ⟨h.toEvo.trans g.toEvo, g.tree.trans h.tree, g.log.trans h.log, g.discards.trans h.discards, ?_, ?_, ?_⟩
  · rw [g.puts, h.puts, Multiset.card_add]; omega
  · intro r hr
    rw [Multiset.map_add, Multiset.mem_add, not_or] at hr
    rw [g.keep r hr.2, h.keep r hr.1]
  · intro p hp
    rcases Multiset.mem_add.1 hp with hp | hp
    · refine ⟨(h.fresh p hp).1, ?_⟩
      rw [g.keep, (h.fresh p hp).2]
      intro hm
      obtain ⟨p', h1, h2⟩ := Multiset.mem_map.1 hm
      have := (g.fresh p' h1).1
      rw [h2, (h.fresh p hp).2] at this
      cases this
    · refine ⟨?_, (g.fresh p hp).2⟩
      by_cases hm : p.1 ∈ N.map Prod.fst
      · obtain ⟨p', h1, h2⟩ := Multiset.mem_map.1 hm
        have := (h.fresh p' h1).2
        rw [h2, (g.fresh p hp).1] at this
        cases this
      · rw [← h.keep _ hm]; exact (g.fresh p hp).1

/-- Actions that leave the tree structs alone. -/
def Trees {α : Type} (m : M K V α) : Prop := ∀ w, (m w).2.trees = w.trees

theorem Trees.bind {α β : Type} {m : M K V α} {f : α → M K V β} (h : Trees m) (g : ∀ a, Trees (f a)) : Trees (m >>= f) := by
  intro w
  show (M.bind m f w).2.trees = _
  have := h w
  unfold M.bind
  rcases hm : m w with ⟨_ | _ | _, w'⟩ <;> rw [hm] at this <;> simp only at this ⊢
  · rw [g, this]
  · exact this
  · exact this

theorem Trees.modN (i : Id) (f : NodeS K V → NodeS K V) : Trees (BT.modN i f) := fun _ => rfl
theorem Trees.onLru (τ : TreeId) (f : LruS → Option LruS) : Trees (BT.onLru τ f : M K V Unit) := by
  intro w
  unfold BT.onLru
  split
  · split <;> rfl
  · rfl
theorem Trees.onCtl (τ : TreeId) (f : Ctl → Ctl) : Trees (BT.onCtl τ f : M K V Unit) := by
  intro w
  unfold BT.onCtl
  split <;> rfl
theorem Trees.evict (τ : TreeId) (i : Id) : Trees (BT.evict τ i : M K V Unit) :=
  (Trees.onLru _ _).bind fun _ => Trees.modN _ _
theorem Trees.markNodeClean (τ : TreeId) (i : Id) : Trees (BT.markNodeClean τ i : M K V Unit) :=
  (Trees.modN _ _).bind fun _ => (Trees.onLru _ _).bind fun _ w => Trees.onCtl _ _ w

theorem Trees.eq {α : Type} {m : M K V α} (h : Trees m) {a : Out α} {w' : World K V} (e : m w = (a, w')) : w'.trees = w.trees := by
  have := h w; rw [e] at this; exact this

theorem evict_calm {i : Id} {w' : World K V} (h : evict P.τ i w = (.ok (), w')) (hI : I P w T w' ρ R) : Calm P.τ w w' :=
  ⟨hI.evo, by rw [(Trees.evict _ _).eq h]⟩

/-- A node is written. -/
theorem I.written {r : Ref} {d : DiskNode K V} (hI : I P w0 T w ρ R) (hf : w.disk r = none) (hl : r.len ≠ 0) :
    let w' : World K V := { w with env := { w.env with puts := w.env.puts + 1 }, disk := fun r' => if r' = r then some d else w.disk r' }
    Grows P.τ w w' {(r, d)} 0 ∧ I P w' (T + ({(r, d)}, 0)) w' ρ (pageB (r, d) + R) := by
  intro w'
  have hn : r ∉ T.1.map Prod.fst := by
    intro hm
    obtain ⟨p, h1, h2⟩ := Multiset.mem_map.1 hm
    have := (hI.disk p h1).1
    rw [h2, hf] at this; cases this
  refine ⟨⟨⟨le_refl _, fun _ _ => rfl, rfl, rfl, rfl, rfl, rfl, rfl, rfl, rfl, rfl⟩, rfl, rfl, rfl, by simp [w'], ?_, ?_⟩,
    .refl _ _, hI.root, ?_, ?_, ?_, ?_, ?_, hI.cached, hI.min, hI.max⟩
  · intro r' hr'
    simp only [Multiset.map_singleton, Multiset.mem_singleton] at hr'
    simp [w', hr']
  · intro p hp
    rw [Multiset.mem_singleton] at hp
    subst hp
    exact ⟨hf, by simp [w']⟩
  · simpa using hI.st.same (w' := w') rfl rfl rfl
  · have := hI.lru
    simp only [Prod.fst_add, Prod.snd_add, pageB_2, zero_add]
    exact ⟨this.is, this.nodup, this.lt⟩
  · obtain ⟨SP, h1, h2⟩ := hI.stale
    refine ⟨SP, h1, ?_⟩
    rw [Prod.fst_add, ← h2]; simp only [Prod.snd_add, Prod.fst_add, pageB_3]; abel
  · rw [Prod.fst_add, Multiset.map_add, Multiset.map_singleton, add_comm, Multiset.singleton_add, Multiset.nodup_cons]
    exact ⟨hn, hI.nodup⟩
  · intro p hp
    rcases Multiset.mem_add.1 hp with hp | hp
    · have h1 : p.1 ≠ r := fun e => hn (e ▸ Multiset.mem_map_of_mem _ hp)
      exact ⟨by simp [w', h1, (hI.disk p hp).1], (hI.disk p hp).2⟩
    · rw [Multiset.mem_singleton] at hp
      subst hp
      exact ⟨by simp [w'], hl⟩

theorem putNode_run {d : DiskNode K V} {n : Nat} (hn : n ≠ 0) (hI : I P w0 T w ρ R) :
    Res (putNode d n w)
      (fun r w' => Grows P.τ w w' {(r, d)} 0 ∧ I P w' (T + ({(r, d)}, 0)) w' ρ (pageB (r, d) + R))
      (fun e w' => e = .putNode ∧ Grows P.τ w w' 0 1 ∧ I P w' T w' ρ R) := by
  have hb : let w' : World K V := { w with env := { w.env with puts := w.env.puts + 1 } }
      Grows P.τ w w' 0 1 ∧ I P w' T w' ρ R := by
    refine ⟨⟨⟨le_refl _, fun _ _ => rfl, rfl, rfl, rfl, rfl, rfl, rfl, rfl, rfl, rfl⟩, rfl, rfl, rfl, by simp, fun _ _ => rfl, by simp⟩,
      .refl _ _, hI.root, hI.st.same rfl rfl rfl, ⟨hI.lru.is, hI.lru.nodup, hI.lru.lt⟩, hI.stale, hI.nodup, hI.disk, hI.cached, hI.min, hI.max⟩
  unfold putNode
  cases hp : w.env.putLoc w.env.puts with
  | none => simp only; exact Res.err rfl ⟨rfl, hb⟩
  | some no =>
    obtain ⟨a, o⟩ := no
    simp only
    cases hd : w.disk ⟨a, o, n⟩ with
    | some _ => simp only; exact Res.err rfl ⟨rfl, hb⟩
    | none => simp only; exact Res.ok rfl (hI.written hd hn)

/-! ### Packing a node -/

/-- The packing callbacks were called, nothing else happened. -/
def Packed (w w' : World K V) : Prop := ∃ n, w' = { w with env := { w.env with packs := n } }

theorem Packed.refl (w : World K V) : Packed w w := ⟨w.env.packs, rfl⟩
theorem Packed.trans {a b c : World K V} (h : Packed a b) (g : Packed b c) : Packed a c := by
  obtain ⟨n, rfl⟩ := h
  obtain ⟨m, rfl⟩ := g
  exact ⟨m, rfl⟩
theorem Packed.node {w w' : World K V} (h : Packed w w') : w'.node = w.node := by obtain ⟨n, rfl⟩ := h; rfl
theorem Packed.fails {w w' : World K V} (h : Packed w w') : w'.env.packFails = w.env.packFails := by obtain ⟨n, rfl⟩ := h; rfl
theorem Packed.calm {w w' : World K V} (h : Packed w w') (τ : TreeId) : Calm τ w w' := by
  obtain ⟨n, rfl⟩ := h
  exact ⟨⟨⟨le_refl _, fun _ _ => rfl, rfl, rfl, rfl, rfl, rfl, rfl, rfl, rfl, rfl⟩, rfl, rfl, rfl, rfl⟩, rfl⟩
theorem Packed.I {w' : World K V} (h : Packed w w') (hI : BT.I P w T w ρ R) : BT.I P w' T w' ρ R := by
  obtain ⟨n, rfl⟩ := h
  exact (hI.env (v := { w.env with packs := n }) rfl rfl rfl rfl rfl rfl).rebase

/-- A packing callback failed. -/
def Unpacked (w : World K V) (e : Err) (w' : World K V) : Prop := e = .codec ∧ (∃ n, w.env.packFails n = true) ∧ Packed w w'

theorem Unpacked.after {a b c : World K V} {e : Err} (h : Packed a b) (g : Unpacked b e c) : Unpacked a e c :=
  ⟨g.1, by rw [← h.fails]; exact g.2.1, h.trans g.2.2⟩

theorem pack_run (w : World K V) : Res (pack w) (fun _ w' => Packed w w') (Unpacked w) := by
  unfold pack
  split
  · rename_i h
    exact Res.err rfl ⟨rfl, ⟨_, h⟩, _, rfl⟩
  · exact Res.ok rfl ⟨_, rfl⟩

/-- Why a node was not written: PutNode failed, or a packing callback did. -/
def Unput (w : World K V) (e : Err) : Prop := e = .putNode ∨ (e = .codec ∧ ∃ n, w.env.packFails n = true)

/-- The calls of PutNode that failed. -/
def misses : Err → Nat
  | .putNode => 1
  | _ => 0

theorem Unput.after {w w' : World K V} {e : Err} (h : Evo τ w w') (g : Unput w' e) : Unput w e := by
  have := (Prod.mk.inj h.putL).2
  rcases g with g | ⟨g, n, hn⟩
  · exact .inl g
  · exact .inr ⟨g, n, by rw [← this]; exact hn⟩

theorem postLeafLoop_run {C : Cmp K} {i : Id} {l : List (K × V)} :
    ∀ (k n : Nat) (w : World K V), KvIs C (w.node i).kv (leafKv l) → n + k = l.length →
      Res (postLeafLoop i n k w) (fun a w' => a = l.drop n ∧ Packed w w') (Unpacked w)
  | 0, n, w, hk, h => by rw [List.drop_of_length_le (by omega)]; exact Res.ok rfl ⟨rfl, .refl w⟩
  | k + 1, n, w, hk, h => by
      have hn : n < l.length := by omega
      have e : at? (n : Int) (leafKv l) = some (l[n].1, .item l[n].2) := by simp [at?_nat, leafKv, hn]
      rw [postLeafLoop, bind_ok (kvGet_run hk n), e, must_some_bind, List.drop_eq_getElem_cons hn]
      simp only
      refine (pack_run w).bind (fun e w h => h) fun _ w1 h1 => ?_
      refine (pack_run w1).bind (fun e w h => .after h1 h) fun _ w2 h2 => ?_
      have h2 := h1.trans h2
      refine (postLeafLoop_run k (n + 1) w2 (by rw [h2.node]; exact hk) (by omega)).bind (fun e w h => .after h2 h) ?_
      rintro _ w3 ⟨rfl, h3⟩
      exact Res.ok rfl ⟨rfl, h2.trans h3⟩

theorem postRef_run {c : Id} {s : Ref} {m : Nat} (line : Nat) (w : World K V)
    (h : (w.node c).dirty = false ∧ (w.node c).ref = s ∧ (w.node c).items = m) :
    Res (postRef line c w) (fun a w' => a = (s, m) ∧ Packed w w') (Unpacked w) := by
  obtain ⟨h1, h2, h3⟩ := h
  rw [postRef, getN_bind, h1, h2, h3]
  refine (pack_run w).bind (fun e w h => h) fun _ w1 h1 => ?_
  exact Res.ok rfl ⟨rfl, h1⟩

theorem postInnerLoop_run {C : Cmp K} {i : Id} {cs : List (K × Kid)} :
    ∀ (k n : Nat) (w : World K V), KvIs C (w.node i).kv (innerKv (cs.map fun p => (p.1, p.2.id))) →
      (∀ p ∈ cs, (w.node p.2.id).dirty = false ∧ (w.node p.2.id).ref = refOf p.2.st ∧ (w.node p.2.id).items = p.2.cnt) →
      n + k = cs.length →
      Res (postInnerLoop i n k w) (fun a w' => a = ((cs.drop n).map fun p => (p.1, p.2.disk)) ∧ Packed w w') (Unpacked w)
  | 0, n, w, hk, hr, h => by rw [List.drop_of_length_le (by omega)]; exact Res.ok rfl ⟨rfl, .refl w⟩
  | k + 1, n, w, hk, hr, h => by
      have hn : n < cs.length := by omega
      have e : at? (n : Int) (innerKv (cs.map fun p => (p.1, p.2.id)) : List (K × Val V)) = some (cs[n].1, .node cs[n].2.id) := by simp [at?_nat, innerKv, hn]
      rw [postInnerLoop, bind_ok (kvGet_run hk n), e, must_some_bind, List.drop_eq_getElem_cons hn]
      simp only [asNode]
      refine (pack_run w).bind (fun e w h => h) fun _ w1 h1 => ?_
      rw [pure_bind_run]
      refine (postRef_run 3015 w1 (by rw [h1.node]; exact hr cs[n] (by simp))).bind (fun e w h => .after h1 h) ?_
      rintro _ w2 ⟨rfl, h2⟩
      have h2 := h1.trans h2
      refine (postInnerLoop_run k (n + 1) w2 (by rw [h2.node]; exact hk) (by rw [h2.node]; exact hr) (by omega)).bind (fun e w h => .after h2 h) ?_
      rintro _ w3 ⟨rfl, h3⟩
      exact Res.ok rfl ⟨rfl, h2.trans h3⟩

theorem postLeaf_run {q : Pos} {i : Id} {l : List (K × V)} (size : DiskNode K V → Nat) (hI : I P w T w ρ (bun P q (.leaf i none l) + R)) :
    Res (postNode size P.τ i w)
      (fun _ w' => ∃ r, Grows P.τ w w' {(r, mkDisk P q.root l.length (.leaf l))} 0 ∧
        I P w' (T + ({(r, mkDisk P q.root l.length (.leaf l))}, 0)) w' ρ (bun P q (.leaf i (some r) l) + R) ∧
        (bun P q (.leaf i (some r) l)).2.2.1 = (bun P q (.leaf i none l)).2.2.1 + {(r, mkDisk P q.root l.length (.leaf l))})
      (fun e w' => Unput w e ∧ Grows P.τ w w' 0 (misses e) ∧ I P w' T w' ρ (bun P q (.leaf i none l) + R)) := by
  have no : ∀ e w', Unpacked w e w' → Unput w e ∧ Grows P.τ w w' 0 (misses e) ∧ I P w' T w' ρ (bun P q (.leaf i none l) + R) := by
    rintro _ w' ⟨rfl, h1, h2⟩
    exact ⟨.inr ⟨rfl, h1⟩, (h2.calm _).grows, h2.I hI⟩
  have hl := hI.isLeaf
  have hd := (hI.head (by simp)).2.2.2.2
  simp only [id_leaf, st_leaf] at hd
  unfold postNode
  rw [getN_bind, hd]
  have eb : ∀ w1, Packed w w1 → Res (postBody i w1) (fun a w' => a = .leaf l ∧ Packed w1 w') (Unpacked w1) := by
    intro w1 h1
    have hl' := hl
    rw [← h1.node] at hl'
    rw [postBody, getN_bind, bind_ok (kvLen_run hl'.kv), hl'.leaf, leafKv_length, if_pos rfl]
    refine (pack_run w1).bind (fun e w h => h) fun _ w2 h2 => ?_
    have := postLeafLoop_run (C := P.toCmp) l.length 0 w2 (by rw [h2.node]; exact hl'.kv) (by simp)
    refine Res.bind (f := fun a => pure _) (by simpa using this) (fun e w h => .after h2 h) ?_
    rintro _ w3 ⟨rfl, h3⟩
    exact Res.ok rfl ⟨rfl, h2.trans h3⟩
  rw [if_neg (by simp), getT_bind]
  have e0 : Res ((if (w.node i).root then pack else pure ()) w) (fun _ w' => Packed w w') (Unpacked w) := by
    split
    · exact pack_run w
    · exact Res.ok rfl (.refl w)
  refine e0.bind no fun _ wa ha => ?_
  refine (eb wa ha).bind (fun e w' h => no e w' (.after ha h)) ?_
  rintro _ wb ⟨rfl, hb⟩
  have hb := ha.trans hb
  refine (pack_run wb).bind (fun e w' h => no e w' (.after hb h)) fun _ wc hc => ?_
  have hc := hb.trans hc
  have hIc := hc.I hI
  rw [show ({ items := (w.node i).items, root := (w.node i).root, max := if (w.node i).root then (w.trees P.τ).max else 0, body := .leaf l } : DiskNode K V) =
    mkDisk P q.root l.length (.leaf l) by rw [mkDisk, hl.items, hl.root, hI.max]]
  refine (putNode_run (by omega) hIc).bind ?_ ?_
  · rintro _ w' ⟨rfl, h1, h2⟩
    exact ⟨.inl rfl, by simpa [misses] using (hc.calm _).grows.trans h1, h2⟩
  rintro r w1 ⟨g1, h1⟩
  replace g1 : Grows P.τ w w1 {(r, mkDisk P q.root l.length (.leaf l))} 0 := by simpa using (hc.calm _).grows.trans g1
  rw [bun_leaf, leafB] at h1
  have h2 := h1.eq (R' := cellB (mkCell P q i none (.leaf l.length l)) + (lruB P.ca i true + (pageB (r, mkDisk P q.root l.length (.leaf l)) + R)))
    (by simp only [ownPage_none, Option.isNone_none]; abel)
  obtain ⟨w2, e2, h3⟩ := h2.modN (f := fun n => { n with ref := r }) { mkCell P q i none (.leaf l.length l) with ref := r } rfl rfl
    (fun n hn => ⟨hn.tree, hn.parent, hn.root, rfl, hn.dirty, hn.body⟩)
  have e2' : modN i (fun n => { n with ref := r }) w1 = (.ok (), w2) := e2
  have g2 : Calm P.τ w1 w2 := ⟨h3.evo, by cases e2; rfl⟩
  obtain ⟨w3, e3, h4⟩ := (h3.rebase.eq (by rw [add_assoc] : _ = cellB { mkCell P q i none (.leaf l.length l) with ref := r } + lruB P.ca i true +
    (pageB (r, mkDisk P q.root l.length (.leaf l)) + R))).markCleanOld
  have e3' : markNodeClean P.τ i w2 = (.ok (), w3) := e3
  rw [bind_ok e2']
  refine Res.ok e3' ⟨r, ?_, ?_, by simp [bun_leaf, leafB, cellB, lruB]⟩
  · have g3 : Calm P.τ w2 w3 := ⟨h4.evo, by rw [(Trees.markNodeClean _ _).eq e3']⟩
    simpa using (g1.trans g2.grows).trans g3.grows
  · refine h4.rebase.eq ?_
    rw [bun_leaf, leafB, ownPage_some, Option.isNone_some]
    simp only [mkCell, refOf, Option.isNone_some, Option.getD_some]
    abel

/-! ### Flush -/

/-- The same node with other children in it. -/
theorem row_change {i : Id} {st : Option Ref} {r : Row K (Gt K V h)} {L : List (Gt K V h)}
    (hL : List.Forall₂ (fun t g : Gt K V h => g.id = t.id ∧ g.erase = t.erase ∧ (st.isSome → g.st = t.st)) r.kids L) :
    ∃ r' : Row K (Gt K V h), r'.kids = L ∧ (Gt.inner i st r').erase = (Gt.inner i st r).erase ∧
      ∀ P : Par K, ∀ q : Pos, innerB P q i st (r'.map Gt.kid) = (innerB P q i st (r.map Gt.kid) : B K V) := by
  obtain ⟨r', h1, h2⟩ := r.refill (L := L) hL.length_eq.symm
  rw [← h1] at hL
  have e1 : r.kids.map Gt.erase = r'.kids.map Gt.erase := forall₂_map hL fun _ _ h => h.2.1.symm
  have e2 : r.kids.map Gt.id = r'.kids.map Gt.id := forall₂_map hL fun _ _ h => h.1.symm
  have e3 : r.kids.map Gt.cnt = r'.kids.map Gt.cnt := forall₂_map hL fun t g h => by rw [Gt.cnt, ← h.2.1]; rfl
  have e4 : st.isSome → r.kids.map Gt.st = r'.kids.map Gt.st := fun hs => forall₂_map hL fun t g h => (h.2.2 hs).symm
  refine ⟨r', h1, ?_, fun P q => ?_⟩
  · rw [erase_inner, erase_inner]
    congr 1
    exact Row.ext' (by rw [Row.kids_map, Row.kids_map, e1]) (by rw [Row.keys_map, Row.keys_map, h2])
  · have hb : ((r'.map Gt.kid).body : Body K V) = (r.map Gt.kid).body := by
      have k1 : (r'.map Gt.kid).total = (r.map Gt.kid).total := by
        have := congrArg List.sum e3
        simpa [Row.total, Function.comp_def, Gt.kid] using this.symm
      have k2 : (r'.kids.map fun t => (t.id, t.cnt)) = r.kids.map fun t => (t.id, t.cnt) :=
        list_fs (by simpa [Function.comp_def] using e2.symm) (by simpa [Function.comp_def] using e3.symm)
      have k3 : r'.c0.id = r.c0.id ∧ (r'.cs.map fun p => (p.1, p.2.id)) = r.cs.map fun p => (p.1, p.2.id) := by
        have := e2.symm
        simp only [Row.kids, List.map_cons, List.cons.injEq, List.map_map] at this
        exact ⟨this.1, list_fs (by simpa [Function.comp_def] using h2) (by simpa [Function.comp_def] using this.2)⟩
      simp only [Row.body, Row.kids_map, List.map_map, Row.map_c0, Row.map_cs, Function.comp_def, Gt.kid]
      rw [show (r'.map Gt.kid).total = (r.map Gt.kid).total from k1] at *
      rw [k2, k3.1, k3.2]
    cases st with
    | none => simp only [innerB, ownPage_none, hb]
    | some ref =>
      have kd : ((r'.map Gt.kid).kids.map Kid.disk) = ((r.map Gt.kid).kids.map Kid.disk) := by
        have k4 := e4 rfl
        rw [Row.kids_map, Row.kids_map, List.map_map, List.map_map]
        exact list_fs (by simpa [Function.comp_def, Kid.disk, Gt.kid] using congrArg (List.map refOf) k4.symm)
          (by simpa [Function.comp_def, Kid.disk, Gt.kid] using e3.symm)
      have kdisk : ((r'.map Gt.kid).disk : DiskBody K V) = (r.map Gt.kid).disk := Row.disk_congr kd (by rw [Row.keys_map, Row.keys_map, h2])
      simp only [innerB, hb, kdisk, Row.total_congr kd]

theorem I.kid {q : Pos} {i : Id} {st : Option Ref} {r : Row K (Gt K V h)} (hI : I P w0 T w ρ (bun P q (.inner i st r) + R))
    {c : Gt K V h} (hc : c ∈ r.kids) : ∃ R', I P w0 T w ρ (bun P (.child i) c + R') := by
  obtain ⟨a, b, e⟩ := List.append_of_mem hc
  rw [bun_inner, kids_sum, e, kidsB_append, kidsB_cons] at hI
  exact ⟨_, hI.eq (by abel : _ = bun P (.child i) c + (innerB P q i st (r.map Gt.kid) + kidsB P i a + kidsB P i b + R))⟩

theorem postInner_run {q : Pos} {i : Id} {r : Row K (Gt K V h)} (size : DiskNode K V → Nat) (hI : I P w T w ρ (bun P q (.inner i none r) + R))
    (hs : ∀ c ∈ r.kids, c.st.isSome ∧ c.odds = 0) :
    Res (postNode size P.τ i w)
      (fun _ w' => ∃ ref d, Grows P.τ w w' {(ref, d)} 0 ∧ I P w' (T + ({(ref, d)}, 0)) w' ρ (bun P q (.inner i (some ref) r) + R) ∧
        (bun P q (.inner i (some ref) r)).2.2.1 = (bun P q (.inner i none r)).2.2.1 + {(ref, d)})
      (fun e w' => Unput w e ∧ Grows P.τ w w' 0 (misses e) ∧ I P w' T w' ρ (bun P q (.inner i none r) + R)) := by
  have no : ∀ e w', Unpacked w e w' → Unput w e ∧ Grows P.τ w w' 0 (misses e) ∧ I P w' T w' ρ (bun P q (.inner i none r) + R) := by
    rintro _ w' ⟨rfl, h1, h2⟩
    exact ⟨.inr ⟨rfl, h1⟩, (h2.calm _).grows, h2.I hI⟩
  have hl := hI.isInner
  have hd : (w.node i).dirty = true := hI.innerCell.dirty
  have hk : ∀ c ∈ r.kids, (w.node c.id).dirty = false ∧ (w.node c.id).ref = refOf c.st ∧ (w.node c.id).items = c.cnt := by
    intro c hc
    obtain ⟨R', h1⟩ := hI.kid hc
    obtain ⟨-, -, -, h2, h3⟩ := h1.head (hs c hc).2
    refine ⟨?_, h2, h1.items⟩
    rw [h3]
    have := (hs c hc).1
    cases hst : c.st with
    | none => rw [hst] at this; cases this
    | some _ => rfl
  unfold postNode
  rw [getN_bind, hd]
  have ht : (r.kids.map Gt.cnt).sum = (r.map Gt.kid).total := by simp [Row.total, Function.comp_def, Gt.kid]
  have eb : ∀ w1, Packed w w1 → Res (postBody i w1) (fun a w' => a = (r.map Gt.kid).disk ∧ Packed w1 w') (Unpacked w1) := by
    intro w1 h1
    have hl' := (h1.I hI).isInner
    rw [← h1.node] at hk
    have hk' : KvIs P.toCmp (w1.node i).kv (innerKv ((r.map Gt.kid).cs.map fun p => (p.1, p.2.id))) := by
      have := hl'.kv
      simpa [Function.comp_def, Gt.kid] using this
    rw [postBody, getN_bind, bind_ok (kvLen_run hl'.kv), hl'.leaf, innerKv_length, if_neg (by simp), hl'.left]
    simp only
    refine (pack_run w1).bind (fun e w h => h) fun _ w2 h2 => ?_
    refine (postRef_run 2978 w2 (by rw [h2.node]; exact hk r.c0 (by simp [Row.kids]))).bind (fun e w h => .after h2 h) ?_
    rintro _ w3 ⟨rfl, h3⟩
    have h3 := h2.trans h3
    have := postInnerLoop_run (C := P.toCmp) (cs := (r.map Gt.kid).cs) r.cs.length 0 w3 (by rw [h3.node]; exact hk') (by
      intro p hp
      obtain ⟨c, hc, rfl⟩ := List.mem_map.1 hp
      rw [h3.node]
      exact hk c.2 (by simp only [Row.kids, List.mem_cons, List.mem_map]; exact .inr ⟨c, hc, rfl⟩)) (by simp)
    refine Res.bind (f := fun a => pure _) (by simpa using this) (fun e w h => .after h3 h) ?_
    rintro _ w4 ⟨rfl, h4⟩
    exact Res.ok rfl ⟨by simp [Row.disk, Kid.disk, Gt.kid], h3.trans h4⟩
  rw [if_neg (by simp), getT_bind]
  have e0 : Res ((if (w.node i).root then pack else pure ()) w) (fun _ w' => Packed w w') (Unpacked w) := by
    split
    · exact pack_run w
    · exact Res.ok rfl (.refl w)
  refine e0.bind no fun _ wa ha => ?_
  refine (eb wa ha).bind (fun e w' h => no e w' (.after ha h)) ?_
  rintro _ wb ⟨rfl, hb⟩
  have hb := ha.trans hb
  refine (pack_run wb).bind (fun e w' h => no e w' (.after hb h)) fun _ wc hc => ?_
  have hc := hb.trans hc
  have hIc := hc.I hI
  rw [show ({ items := (w.node i).items, root := (w.node i).root, max := if (w.node i).root then (w.trees P.τ).max else 0, body := (r.map Gt.kid).disk } : DiskNode K V) =
    mkDisk P q.root (r.map Gt.kid).total (r.map Gt.kid).disk by rw [mkDisk, hl.items, hl.root, hI.max, ht]]
  generalize hD : mkDisk P q.root (r.map Gt.kid).total (r.map Gt.kid).disk = D
  refine (putNode_run (by omega) hIc).bind ?_ ?_
  · rintro _ w' ⟨rfl, h1, h2⟩
    exact ⟨.inl rfl, by simpa [misses] using (hc.calm _).grows.trans h1, h2⟩
  rintro ref w1 ⟨g1, h1⟩
  replace g1 : Grows P.τ w w1 {(ref, D)} 0 := by simpa using (hc.calm _).grows.trans g1
  rw [bun_inner, innerB] at h1
  have h2 := h1.eq (R' := cellB (mkCell P q i none (r.map Gt.kid).body) + (lruB P.ca i true + (pageB (ref, D) + (r.kids.map (bun P (Pos.child i))).sum + R)))
    (by simp only [ownPage_none, Option.isNone_none]; abel)
  obtain ⟨w2, e2, h3⟩ := h2.modN (f := fun n => { n with ref := ref }) { mkCell P q i none (r.map Gt.kid).body with ref := ref } rfl rfl
    (fun n hn => ⟨hn.tree, hn.parent, hn.root, rfl, hn.dirty, hn.body.congr rfl rfl rfl rfl rfl rfl⟩)
  have e2' : modN i (fun n => { n with ref := ref }) w1 = (.ok (), w2) := e2
  have g2 : Calm P.τ w1 w2 := ⟨h3.evo, by cases e2; rfl⟩
  obtain ⟨w3, e3, h4⟩ := (h3.rebase.eq ((add_assoc _ _ _).symm : _ = cellB { mkCell P q i none (r.map Gt.kid).body with ref := ref } + lruB P.ca i true +
    (pageB (ref, D) + (r.kids.map (bun P (Pos.child i))).sum + R))).markCleanOld
  have e3' : markNodeClean P.τ i w2 = (.ok (), w3) := e3
  rw [bind_ok e2']
  refine Res.ok e3' ⟨ref, D, ?_, ?_, by rw [bun_inner, bun_inner, innerB, innerB, hD]; simp [cellB, lruB, add_comm, add_left_comm]⟩
  · have g3 : Calm P.τ w2 w3 := ⟨h4.evo, by rw [(Trees.markNodeClean _ _).eq e3']⟩
    simpa using (g1.trans g2.grows).trans g3.grows
  · refine h4.rebase.eq ?_
    rw [bun_inner, innerB, hD, ownPage_some, Option.isNone_some]
    simp only [mkCell, refOf, Option.isNone_some, Option.getD_some]
    abel

/-- What flushing makes of a tree. -/
structure Flushed (purge : Bool) (t g : Gt K V h) : Prop where
  id : g.id = t.id
  erase : g.erase = t.erase
  clean : g.Clean
  odds : g.odds = 0
  stored : g.st.isSome
  same : t.st.isSome → g.st = t.st
  gone : purge → g.ld = false

/-- What a failing flush makes of a tree. -/
structure Halfway (t g : Gt K V h) : Prop where
  id : g.id = t.id
  erase : g.erase = t.erase
  clean : g.Clean
  odds : g.odds = 0
  was : t.st = none
  still : g.st = none

/-- `flushNode`: afterwards the node and all below it are stored; a node that was stored already is not written again. -/
theorem flushNode_run (size : DiskNode K V → Nat) (pg : Bool) : ∀ {h : Nat} {q : Pos} (t : Gt K V h) {w : World K V}
    {T : Tot K V} {R : B K V} {fuel : Nat}, h < fuel →
    I P w T w ρ (bun P q t + R) → t.odds = 0 → t.Clean →
    Res (flushNode size P.τ pg fuel t.id w)
      (fun _ w' => ∃ g N, Flushed pg t g ∧ (t.st.isSome → N = 0) ∧ Grows P.τ w w' N 0 ∧ I P w' (T + (N, 0)) w' ρ (bun P q g + R) ∧
        (bun P q g).2.2.1 = (bun P q t).2.2.1 + N)
      (fun e w' => Unput w e ∧ ∃ g N, Halfway t g ∧ Grows P.τ w w' N (misses e) ∧ I P w' (T + (N, 0)) w' ρ (bun P q g + R) ∧
        (bun P q g).2.2.1 = (bun P q t).2.2.1 + N)
  | h, q, t, w, T, R, 0, hf, _, _, _ => by omega
  | h, q, t, w, T, R, fuel + 1, hf, hI, hz, hcl => by
      obtain ⟨-, -, -, -, hd⟩ := hI.head hz
      unfold flushNode
      rw [getN_bind, hI.loaded]
      cases hl : t.ld with
      | false =>
        obtain ⟨i, d, rfl⟩ : ∃ i d, t = .unl i d := by
          cases t with
          | unl i d => exact ⟨i, d, rfl⟩
          | ld i st x => cases hl
          | od i o x => cases hl
        exact Res.ok rfl ⟨.unl i d, 0, ⟨rfl, rfl, hcl, hz, rfl, fun _ => rfl, fun _ => rfl⟩, fun _ => rfl, (Calm.refl _ _).grows, by simpa using hI, by simp⟩
      | true =>
        rw [if_neg (by simp)]
        cases h with
        | zero =>
          rcases t.cases0 with ⟨i, d, rfl⟩ | ⟨i, st, l, rfl⟩ | ⟨i, o, l, rfl⟩
          · cases hl
          · have e1 : eachChild 1899 i (flushNode size P.τ pg fuel) w = (.ok (), w) := by
              rw [eachChild, getN_bind, hI.isLeaf.leaf]; rfl
            simp only [id_leaf, st_leaf] at hd ⊢
            rw [bind_ok e1, getN_bind, hd]
            have fin : ∀ (ref : Ref) (w1 : World K V) (N : Multiset (Ref × DiskNode K V)), (st.isSome → st = some ref ∧ N = 0) →
                Grows P.τ w w1 N 0 → I P w1 (T + (N, 0)) w1 ρ (bun P q (.leaf i (some ref) l) + R) →
                (bun P q (Gt.leaf i (some ref) l)).2.2.1 = (bun P q (Gt.leaf i st l)).2.2.1 + N →
                Res ((if pg then evict P.τ i else pure ()) w1)
                  (fun _ w' => ∃ g N, Flushed pg (Gt.leaf i st l) g ∧ (st.isSome → N = 0) ∧ Grows P.τ w w' N 0 ∧ I P w' (T + (N, 0)) w' ρ (bun P q g + R) ∧
                    (bun P q g).2.2.1 = (bun P q (Gt.leaf i st l)).2.2.1 + N)
                  (fun e w' => Unput w e ∧ ∃ g N, Halfway (Gt.leaf i st l) g ∧ Grows P.τ w w' N (misses e) ∧ I P w' (T + (N, 0)) w' ρ (bun P q g + R) ∧
                    (bun P q g).2.2.1 = (bun P q (Gt.leaf i st l)).2.2.1 + N) := by
              intro ref w1 N hN hg h1 hp
              cases pg with
              | false => exact Res.ok rfl ⟨.leaf i (some ref) l, N, ⟨rfl, rfl, trivial, rfl, rfl, fun h => (hN h).1.symm, by simp⟩, fun h => (hN h).2, hg, h1, hp⟩
              | true =>
                obtain ⟨w2, e2, h2⟩ := evict_leaf h1
                refine Res.ok e2 ⟨.unl i (.leaf ref l), N, ⟨rfl, by simp, by simp, by simp, rfl, fun h => (hN h).1.symm, fun _ => rfl⟩, fun h => (hN h).2, ?_, h2.rebase, by rw [← hp]; simp [bun_unl, bun_leaf, leafB, cellB, lruB, offB, pages_leaf]⟩
                simpa using hg.trans (evict_calm e2 h2).grows
            cases st with
            | some ref =>
              rw [Option.isNone_some, if_neg (by simp), pure_bind_run]
              exact fin ref w 0 (fun _ => ⟨rfl, rfl⟩) (Calm.refl _ _).grows (by simpa using hI) (by simp)
            | none =>
              rw [Option.isNone_none, if_pos rfl]
              refine (postLeaf_run size hI).bind ?_ ?_
              · rintro e w1 ⟨h1, h2, h3⟩
                exact ⟨h1, _, 0, ⟨rfl, rfl, trivial, rfl, rfl, rfl⟩, h2, by simpa using h3, by simp⟩
              · rintro _ w1 ⟨ref, h1, h2, h3⟩
                exact fin ref w1 _ (fun h => by cases h) h1 h2 h3
          · simp at hz
        | succ h =>
          rcases t.casesS with ⟨i, d, rfl⟩ | ⟨i, st, r, rfl⟩ | ⟨i, o, l, rfl⟩
          · cases hl
          · simp only [id_inner, st_inner] at hd ⊢
            rw [Clean_inner] at hcl
            have hw := hI
            rw [bun_inner, kids_sum, add_assoc] at hw
            have pay : ∀ {g : Gt K V (h + 1)} {N : Multiset (Ref × DiskNode K V)} {R X : B K V}, bun P q g + R = X →
                X.2.2.1 = (bun P q (.inner i st r) + R).2.2.1 + N → (bun P q g).2.2.1 = (bun P q (.inner i st r)).2.2.1 + N := by
              rintro g N R X rfl e
              have e' : (bun P q g).2.2.1 + R.2.2.1 = (bun P q (.inner i st r)).2.2.1 + R.2.2.1 + N := e
              rw [add_right_comm] at e'
              exact add_right_cancel e'
            obtain ⟨S, hS⟩ : ∃ S, S = R := ⟨R, rfl⟩
            refine (eachChild_walk2 (A := fun R w' => ∃ N, (st.isSome → N = 0) ∧ Grows P.τ w w' N 0 ∧ I P w' (T + (N, 0)) w' ρ R ∧ R.2.2.1 = (bun P q (.inner i st r) + S).2.2.1 + N)
              (A' := fun e R w' => ∃ N, Grows P.τ w w' N (misses e) ∧ I P w' (T + (N, 0)) w' ρ R ∧ R.2.2.1 = (bun P q (.inner i st r) + S).2.2.1 + N) (P := P)
              (fun h => h.choose_spec.2.2.1.cell) (bun P (Pos.child i)) (bun P (Pos.child i))
              (Q := Flushed pg) (E := fun e t g => Unput w e ∧ Halfway t g) (κ := r.map Gt.kid) (L := r.kids) (by simp) 1899
              (f := flushNode size P.τ pg fuel) ?_ ⟨0, fun _ => rfl, (Calm.refl _ _).grows, by simpa using hw, by rw [hS, bun_inner, kids_sum, add_assoc, add_zero]⟩).bind ?_ ?_
            · rintro c hc R w' ⟨N, hN, hg, hI, hp⟩
              have hcz := odds_kid hz hc
              refine (flushNode_run size pg c (by omega) hI hcz (hcl c hc).1).mono ?_ ?_
              · rintro _ w2 ⟨g, M, g1, g2, g3, g4, g5⟩
                refine ⟨g, g1, N + M, fun h => by rw [hN h, g2 ((hcl c hc).2 h)]; rfl, ?_, by rw [← Tot.add_more]; exact g4, by rw [show ∀ a b : B K V, (a + b).2.2.1 = a.2.2.1 + b.2.2.1 from fun _ _ => rfl] at hp ⊢; rw [g5, add_right_comm, hp, add_assoc]⟩
                simpa using hg.trans g3
              · rintro e w2 ⟨g0, g, M, g1, g3, g4, g5⟩
                refine ⟨g, ⟨g0.after hg.toEvo, g1⟩, N + M, ?_, by rw [← Tot.add_more]; exact g4, by rw [show ∀ a b : B K V, (a + b).2.2.1 = a.2.2.1 + b.2.2.1 from fun _ _ => rfl] at hp ⊢; rw [g5, add_right_comm, hp, add_assoc]⟩
                simpa using hg.trans g3
            · rintro e w' ⟨pre, c, post, as, g, hL, hQ, ⟨he, hh⟩, N, hg, hI', hp⟩
              have hcm : c ∈ r.kids := by rw [hL]; simp
              have hst : st = none := by
                have := (hcl c hcm).2
                rw [hh.was] at this
                cases st with
                | none => rfl
                | some _ => exact absurd (this rfl) (by simp)
              subst hst
              have hL' : List.Forall₂ (fun t g : Gt K V h => g.id = t.id ∧ g.erase = t.erase ∧ g.Clean ∧ g.odds = 0) r.kids (as ++ g :: post) := by
                rw [hL]
                refine List.rel_append (forall₂_imp hQ fun _ _ _ h => ⟨h.id, h.erase, h.clean, h.odds⟩) (.cons ⟨hh.id, hh.erase, hh.clean, hh.odds⟩ ?_)
                have : ∀ c ∈ post, c ∈ r.kids := fun c hc => by rw [hL]; simp [hc]
                clear hL hI' hI hw hp
                induction post with
                | nil => exact .nil
                | cons x post ih =>
                  exact .cons ⟨rfl, rfl, (hcl x (this x (by simp))).1, odds_kid hz (this x (by simp))⟩ (ih fun c hc => this c (by simp [hc]))
              obtain ⟨r', a1, a2, a3⟩ := row_change (i := i) (st := none) (forall₂_imp hL' fun _ _ _ h => ⟨h.1, h.2.1, fun h => by cases h⟩)
              refine ⟨he, .inner i none r', N, ⟨rfl, a2, ?_, ?_, rfl, rfl⟩, hg, ?_, ?_⟩
              · rw [Clean_inner, a1]
                intro x hx
                obtain ⟨y, -, y2⟩ := forall₂_right hL' hx
                exact ⟨y2.2.2.1, fun h => by cases h⟩
              · rw [odds_inner, a1]
                refine List.sum_eq_zero ?_
                intro o ho
                obtain ⟨x, hx, rfl⟩ := List.mem_map.1 ho
                obtain ⟨y, -, y2⟩ := forall₂_right hL' hx
                exact y2.2.2.2
              · rw [bun_inner, a3, a1, kids_sum, kidsB_append, kidsB_cons]
                refine hI'.eq ?_
                rw [kids_sum]; abel
              · rw [hS] at hp
                refine pay (R := R) ?_ hp
                rw [bun_inner, a3, a1, kids_sum, kidsB_append, kidsB_cons, kids_sum]; abel
            · rintro _ w' ⟨L, hL, N, hN, hg, hI', hp⟩
              obtain ⟨r', a1, a2, a3⟩ := row_change (i := i) (st := st) (forall₂_imp hL fun x _ hx h => ⟨h.id, h.erase, fun hs => h.same ((hcl x hx).2 hs)⟩)
              have hk : ∀ c ∈ r'.kids, c.Clean ∧ c.st.isSome ∧ c.odds = 0 ∧ (pg → c.ld = false) := by
                rw [a1]
                intro c hc
                obtain ⟨y, -, y2⟩ := forall₂_right hL hc
                exact ⟨y2.clean, y2.stored, y2.odds, y2.gone⟩
              have hI2 : I P w' (T + (N, 0)) w' ρ (bun P q (.inner i st r') + R) := by
                rw [bun_inner, a1, a3, add_assoc]; exact hI'
              have hp2 : (bun P q (.inner i st r')).2.2.1 = (bun P q (.inner i st r)).2.2.1 + N :=
                pay (R := R) (by rw [bun_inner, a1, a3, add_assoc]) (by rw [hS] at hp; exact hp)
              have hz' : ∀ st', (Gt.inner i st' r').odds = 0 := by
                intro st'
                rw [odds_inner]
                refine List.sum_eq_zero ?_
                intro o ho
                obtain ⟨x, hx, rfl⟩ := List.mem_map.1 ho
                exact (hk x hx).2.2.1
              have hd' := (hI2.head (hz' st)).2.2.2.2
              rw [id_inner, st_inner] at hd'
              rw [getN_bind, hd']
              have fin : ∀ (ref : Ref) (w1 : World K V) (M : Multiset (Ref × DiskNode K V)), (st.isSome → st = some ref ∧ M = 0) →
                  Grows P.τ w' w1 M 0 → I P w1 (T + (N, 0) + (M, 0)) w1 ρ (bun P q (.inner i (some ref) r') + R) →
                  (bun P q (Gt.inner i (some ref) r')).2.2.1 = (bun P q (Gt.inner i st r')).2.2.1 + M →
                  Res ((if pg then evict P.τ i else pure ()) w1)
                    (fun _ w' => ∃ g N, Flushed pg (Gt.inner i st r) g ∧ (st.isSome → N = 0) ∧ Grows P.τ w w' N 0 ∧ I P w' (T + (N, 0)) w' ρ (bun P q g + R) ∧
                      (bun P q g).2.2.1 = (bun P q (Gt.inner i st r)).2.2.1 + N)
                    (fun e w' => Unput w e ∧ ∃ g N, Halfway (Gt.inner i st r) g ∧ Grows P.τ w w' N (misses e) ∧ I P w' (T + (N, 0)) w' ρ (bun P q g + R) ∧
                      (bun P q g).2.2.1 = (bun P q (Gt.inner i st r)).2.2.1 + N) := by
                intro ref w1 M hM hgM h1 hp3
                have hp4 : (bun P q (Gt.inner i (some ref) r')).2.2.1 = (bun P q (Gt.inner i st r)).2.2.1 + (N + M) := by
                  rw [hp3, hp2, add_assoc]
                have hcc : (Gt.inner i (some ref) r').Clean := by
                  rw [Clean_inner]; exact fun c hc => ⟨(hk c hc).1, fun _ => (hk c hc).2.1⟩
                have hg1 := hg.trans hgM
                cases pg with
                | false =>
                  refine Res.ok rfl ⟨.inner i (some ref) r', N + M, ⟨rfl, a2, hcc, hz' _, rfl, fun h => (hM h).1.symm, by simp⟩,
                    fun h => by rw [hN h, (hM h).2]; rfl, by simpa using hg1, by rw [← Tot.add_more]; exact h1, hp4⟩
                | true =>
                  obtain ⟨w2, d, e2, s2, h2⟩ := evict_inner (fun c hc => (hk c hc).2.2.2 rfl) h1
                  refine Res.ok e2 ⟨.unl i d, N + M, ⟨rfl, s2.erase.trans a2, by simp, by simp, rfl, fun h => by rw [s2.st, st_inner]; exact (hM h).1.symm, fun _ => rfl⟩,
                    fun h => by rw [hN h, (hM h).2]; rfl, ?_, by rw [← Tot.add_more]; exact h2.rebase, by rw [s2.pages, hp4]⟩
                  simpa using hg1.trans (evict_calm e2 h2).grows
              cases st with
              | some ref =>
                rw [Option.isNone_some, if_neg (by simp), pure_bind_run]
                exact fin ref w' 0 (fun _ => ⟨rfl, rfl⟩) (Calm.refl _ _).grows (by simpa using hI2) (by simp)
              | none =>
                rw [Option.isNone_none, if_pos rfl]
                refine (postInner_run size hI2 (fun c hc => ⟨(hk c hc).2.1, (hk c hc).2.2.1⟩)).bind ?_ ?_
                · rintro e w1 ⟨h1, h2, h3⟩
                  refine ⟨h1.after hg.toEvo, .inner i none r', N, ⟨rfl, a2, ?_, hz' _, rfl, rfl⟩, by simpa using hg.trans h2, h3, hp2⟩
                  rw [Clean_inner]; exact fun c hc => ⟨(hk c hc).1, fun h => by cases h⟩
                · rintro _ w1 ⟨ref, d, h1, h2, h3⟩
                  exact fin ref w1 _ (fun h => by cases h) h1 h2 h3
          · simp [odds_odInner] at hz

/-- `Flush` -/
theorem flush_run (size : DiskNode K V → Nat) (pg : Bool) {g : Gt K V H} (hr : Rest P w T R g w) {fuel : Nat} (hf : H < fuel) :
    Res (flush size P.τ fuel pg w)
      (fun a w' => ∃ g' N, g'.st = some a ∧ Flushed pg g g' ∧ (g.st.isSome → N = 0) ∧ Grows P.τ w w' N 0 ∧ Rest P w' (T + (N, 0)) R g' w' ∧
        (bun P ⟨none, true⟩ g').2.2.1 = (bun P ⟨none, true⟩ g).2.2.1 + N)
      (fun e w' => Unput w e ∧ ∃ g' N, Halfway g g' ∧ Grows P.τ w w' N (misses e) ∧ Rest P w' (T + (N, 0)) R g' w' ∧
        (bun P ⟨none, true⟩ g').2.2.1 = (bun P ⟨none, true⟩ g).2.2.1 + N) := by
  rw [flush, bind_ok hr.root]
  refine (flushNode_run size pg g hf hr.I hr.odds hr.clean).bind ?_ ?_
  · rintro e w' ⟨he, g', N, h1, h2, h3, hp⟩
    refine ⟨he, g', N, h1, h2, ⟨?_, h1.clean, h1.odds, by rw [h1.erase]; exact hr.occ, by rw [h1.erase]; exact hr.ord⟩, hp⟩
    rw [h1.id]; exact h3
  · rintro _ w' ⟨g', N, h1, h2, h3, h4, hp⟩
    have hr' : Rest P w' (T + (N, 0)) R g' w' := ⟨by rw [h1.id]; exact h4, h1.clean, h1.odds, by rw [h1.erase]; exact hr.occ, by rw [h1.erase]; exact hr.ord⟩
    rw [fetchLocation, bind_ok hr'.root, getN_bind, (hr'.I.head hr'.odds).2.2.2.1]
    refine Res.ok rfl ⟨g', N, ?_, h1, h2, h3, hr', hp⟩
    have := h1.stored
    cases hs : g'.st with
    | none => rw [hs] at this; cases this
    | some ref => rfl

/-! ### Touch -/

theorem odds_row {i : Id} {st : Option Ref} {r : Row K (Gt K V h)} (hk : ∀ c ∈ r.kids, c.odds = 0) : (Gt.inner i st r).odds = 0 := by
  rw [odds_inner]
  refine List.sum_eq_zero ?_
  intro o ho
  obtain ⟨x, hx, rfl⟩ := List.mem_map.1 ho
  exact hk x hx

/-- The same tree, other parts of it being stored or loaded. -/
structure Alike (t g : Gt K V h) : Prop where
  id : g.id = t.id
  erase : g.erase = t.erase
  clean : g.Clean
  odds : g.odds = 0

theorem Sim.alike {t g : Gt K V h} (s : Sim P t g) (hz : t.odds = 0) (hc : t.Clean) : Alike t g :=
  ⟨s.id, s.erase, s.clean hc, by rw [s.odds]; exact hz⟩

theorem Alike.trans {a b c : Gt K V h} (h1 : Alike a b) (h2 : Alike b c) : Alike a c :=
  ⟨h2.id.trans h1.id, h2.erase.trans h1.erase, h2.clean, h2.odds⟩

theorem Flushed.alike {b : Bool} {t g : Gt K V h} (f : Flushed b t g) : Alike t g := ⟨f.id, f.erase, f.clean, f.odds⟩
theorem Halfway.alike {t g : Gt K V h} (f : Halfway t g) : Alike t g := ⟨f.id, f.erase, f.clean, f.odds⟩

theorem Rest.alike {w0' : World K V} {T' : Tot K V} {g g' : Gt K V H} (hr : Rest P w0 T R g w) (ha : Alike g g') {w' : World K V}
    (hI : BT.I P w0' T' w' (some g.id) (bun P ⟨none, true⟩ g' + (slotB {g.id} + R'))) : Rest P w0' T' R' g' w' :=
  ⟨by rw [ha.id]; exact hI, ha.clean, ha.odds, by rw [ha.erase]; exact hr.occ, by rw [ha.erase]; exact hr.ord⟩

/-- A dirty node with children replaced. -/
theorem Alike.row {i : Id} {r : Row K (Gt K V h)} {L : List (Gt K V h)} (hL : List.Forall₂ Alike r.kids L) :
    ∃ r' : Row K (Gt K V h), r'.kids = L ∧ Alike (.inner i none r) (.inner i none r') ∧
      ∀ P : Par K, ∀ q : Pos, innerB P q i none (r'.map Gt.kid) = (innerB P q i none (r.map Gt.kid) : B K V) := by
  obtain ⟨r', a1, a2, a3⟩ := row_change (i := i) (st := none) (forall₂_imp hL fun _ _ _ h => ⟨h.id, h.erase, fun h => by cases h⟩)
  refine ⟨r', a1, ⟨rfl, a2, ?_, odds_row ?_⟩, a3⟩
  · rw [Clean_inner, a1]
    intro x hx
    obtain ⟨y, -, y2⟩ := forall₂_right hL hx
    exact ⟨y2.clean, fun h => by cases h⟩
  · rw [a1]
    intro x hx
    obtain ⟨y, -, y2⟩ := forall₂_right hL hx
    exact y2.odds

theorem Alike.refls {L : List (Gt K V h)} (hL : ∀ c ∈ L, c.Clean ∧ c.odds = 0) : List.Forall₂ Alike L L := by
  induction L with
  | nil => exact .nil
  | cons x L ih => exact .cons ⟨rfl, rfl, (hL x (by simp)).1, (hL x (by simp)).2⟩ (ih fun c hc => hL c (by simp [hc]))

/-- `touchNode`: afterwards nothing of the tree is stored. -/
theorem touchNode_run : ∀ {h : Nat} {q : Pos} (t : Gt K V h) {w : World K V} {R : B K V} {fuel : Nat}, h < fuel →
    I P w0 T w ρ (bun P q t + R) → t.odds = 0 → t.Clean → Ord P.toCmp t.erase.seq →
    Res (touchNode P.cmp P.τ fuel t.id w)
      (fun _ w' => ∃ g, (Alike t g ∧ g.st = none ∧ ∀ q, (bun P q g).2.2.1 = 0) ∧ I P w0 T w' ρ (bun P q g + R))
      (fun e w' => Faulty w0 e ∧ ∃ g, Alike t g ∧ (g = t ∨ g.st = none) ∧ I P w0 T w' ρ (bun P q g + R))
  | h, q, t, w, R, 0, hf, _, _, _, _ => by omega
  | h, q, t, w, R, fuel + 1, hf, hI, hz, hcl, ho => by
      unfold touchNode
      refine (visit_run false hI hz ho).bind ?_ ?_
      · rintro e w' ⟨h1, h2⟩
        exact ⟨h1, t, ⟨rfl, rfl, hcl, hz⟩, .inl rfl, h2⟩
      rintro _ w1 ⟨t1, hl, hs, h1⟩
      have ha := hs.alike hz hcl
      rw [← hs.erase] at ho
      rw [← hs.id]
      cases h with
      | zero =>
        rcases t1.cases0 with ⟨i, d, rfl⟩ | ⟨i, st, l, rfl⟩ | ⟨i, o, l, rfl⟩
        · cases hl
        · rw [bun_leaf, leafB] at h1
          obtain ⟨w2, e2, h2⟩ := h1.markDirty (c := mkCell P q i st (.leaf l.length l)) rfl
          have e2' : markNodeDirty P.τ i w1 = (.ok (), w2) := e2
          have h3 : I P w0 T w2 ρ (bun P q (.leaf i none l) + R) := by
            refine h2.eq ?_
            rw [bun_leaf, leafB, ownPage_none, add_zero]; rfl
          rw [id_leaf, bind_ok e2', eachChild, getN_bind, h3.isLeaf.leaf]
          refine Res.ok rfl ⟨.leaf i none l, ⟨ha.trans ⟨rfl, rfl, trivial, rfl⟩, rfl, fun q => ?_⟩, h3⟩
          rw [bun_leaf, leafB]; simp
        · have := ha.odds; simp at this
      | succ h =>
        rcases t1.casesS with ⟨i, d, rfl⟩ | ⟨i, st, r, rfl⟩ | ⟨i, o, l, rfl⟩
        · cases hl
        · rw [bun_inner, innerB, add_assoc] at h1
          obtain ⟨w2, e2, h2⟩ := h1.markDirty (c := mkCell P q i st (r.map Gt.kid).body) rfl
          have e2' : markNodeDirty P.τ i w1 = (.ok (), w2) := e2
          have hw : I P w0 T w2 ρ (innerB P q i none (r.map Gt.kid) + (kidsB P i r.kids + R)) := by
            refine h2.eq ?_
            rw [innerB, ownPage_none, add_zero]; rfl
          have hcc := ha.clean
          rw [Clean_inner] at hcc
          have hck : ∀ c ∈ r.kids, c.Clean ∧ c.odds = 0 := fun c hc => ⟨(hcc c hc).1, odds_kid ha.odds hc⟩
          rw [erase_inner] at ho
          have hok : ∀ c ∈ r.kids, Ord P.toCmp c.erase.seq := fun c hc => ho.kid (by simpa using ⟨c, hc, rfl⟩)
          have haN : ∀ {g}, Alike (.inner i none r) g → Alike t g := fun h => ha.trans ⟨h.id, h.erase, h.clean, h.odds⟩
          rw [id_inner, bind_ok e2']
          refine (eachChild_walk (A := fun R w => I P w0 T w ρ R) (P := P) (fun h => h.cell) (bun P (Pos.child i)) (bun P (Pos.child i))
            (Q := fun t g => Alike t g ∧ g.st = none ∧ ∀ q, (bun P q g).2.2.1 = 0) (E := fun e t g => Faulty w0 e ∧ Alike t g)
            (κ := r.map Gt.kid) (L := r.kids) (by simp) 2557
            (f := touchNode P.cmp P.τ fuel) ?_ hw).mono ?_ ?_
          · intro c hc R w hI
            refine (touchNode_run c (by omega) hI (hck c hc).2 (hck c hc).1 (hok c hc)).mono (fun _ _ h => h) ?_
            rintro e w' ⟨g1, g, g2, -, g3⟩
            exact ⟨g, ⟨g1, g2⟩, g3⟩
          · rintro _ w' ⟨L, hL, hI'⟩
            obtain ⟨r', a1, a2, a3⟩ := Alike.row (i := i) (forall₂_imp hL fun _ _ _ h => h.1)
            refine ⟨.inner i none r', ⟨haN a2, rfl, fun q => ?_⟩, ?_⟩
            · rw [bun_inner, innerB, a1]
              have : ∀ q, (L.map (bun P q)).sum.2.2.1 = 0 := by
                intro q
                have hp : ∀ x ∈ L, ∀ q, (bun P q x).2.2.1 = 0 := fun x hx => by
                  obtain ⟨y, -, y2⟩ := forall₂_right hL hx
                  exact y2.2.2
                clear hL a1 hI'
                induction L with
                | nil => rfl
                | cons x L ih => simp [hp x (by simp), ih fun y hy => hp y (by simp [hy])]
              simp [this]
            · rw [bun_inner, a3, a1, add_assoc]; exact hI'
          · rintro e w' ⟨pre, c, post, as, g, hL, hQ, ⟨hfe, hh⟩, hI'⟩
            have hL' : List.Forall₂ Alike r.kids (as ++ g :: post) := by
              rw [hL]
              refine List.rel_append (forall₂_imp hQ fun _ _ _ h => h.1) (.cons hh (Alike.refls fun c hc => hck c ?_))
              rw [hL]; simp [hc]
            obtain ⟨r', a1, a2, a3⟩ := Alike.row (i := i) hL'
            refine ⟨hfe, .inner i none r', haN a2, .inr rfl, ?_⟩
            rw [bun_inner, a3, a1, kids_sum, kidsB_append, kidsB_cons]
            refine hI'.eq ?_
            rw [kids_sum]; abel
        · have := ha.odds; simp [odds_odInner] at this

/-- `Touch` -/
theorem touch_run {g : Gt K V H} (hr : Rest P w0 T R g w) {fuel : Nat} (hf : H < fuel) :
    Res (touch P.cmp P.τ fuel w)
      (fun _ w' => ∃ g', Alike g g' ∧ g'.st = none ∧ (∀ q, (bun P q g').2.2.1 = 0) ∧ Rest P w0 T R g' w')
      (fun e w' => Faulty w0 e ∧ ∃ g', Alike g g' ∧ (g' = g ∨ g'.st = none) ∧ Rest P w0 T R g' w') := by
  rw [touch, bind_ok hr.root]
  refine (touchNode_run g hf hr.I hr.odds hr.clean hr.ord).mono ?_ ?_
  · rintro _ w' ⟨g', ⟨h1, h2, h3⟩, h4⟩
    exact ⟨g', h1, h2, h3, hr.alike h1 h4⟩
  · rintro e w' ⟨h0, g', h1, h3, h2⟩
    exact ⟨h0, g', h1, h3, hr.alike h1 h2⟩

/-! ### Prune -/

/-- The nodes at `l` were discarded, in this order, and `k` more calls of DiscardNode failed. -/
def dropped (w : World K V) (l : List Ref) (k : Nat) : World K V :=
  { w with
    disk := fun r => if r ∈ l then none else w.disk r
    log := l.reverse ++ w.log
    env := { w.env with discards := w.env.discards + l.length + k } }

theorem dropped_nil (w : World K V) : dropped w [] 0 = w := by simp [dropped]

theorem ranged_run (l : List Ref) (w : World K V) : ∃ l', ranged l w = (.ok l', w) ∧ l'.Perm l := by
  unfold ranged
  dsimp only
  split
  · rename_i h
    exact ⟨_, rfl, List.isPerm_iff.1 h⟩
  · exact ⟨_, rfl, .refl _⟩

theorem pruneLoop_run : ∀ (l : List Ref) (w : World K V), (∀ r ∈ l, w.disk r ≠ none) → l.Nodup →
    Res (pruneLoop l w) (fun _ w' => w' = dropped w l 0)
      (fun e w' => e = .discardNode ∧ (∃ n, w.env.discardFails n = true) ∧ ∃ pre r post, l = pre ++ r :: post ∧ w' = dropped w pre 1)
  | [], w, _, _ => Res.ok rfl (dropped_nil w).symm
  | r :: l, w, hd, hn => by
      rw [List.nodup_cons] at hn
      unfold pruneLoop
      have hr := hd r (by simp)
      cases hf : w.env.discardFails w.env.discards with
      | true =>
        have : discardDisk r w = (.err .discardNode, dropped w [] 1) := by
          simp [discardDisk, hf, dropped]
        rw [bind_err this]
        exact Res.err rfl ⟨rfl, ⟨_, hf⟩, [], r, l, rfl, rfl⟩
      | false =>
        have e1 : discardDisk r w = (.ok (), dropped w [r] 0) := by
          cases hs : w.disk r with
          | none => exact absurd hs hr
          | some d => simp [discardDisk, hf, hs, dropped]
        rw [bind_ok e1]
        have e2 : ∀ l', dropped (dropped w [r] 0) l' 0 = dropped w (r :: l') 0 ∧ dropped (dropped w [r] 0) l' 1 = dropped w (r :: l') 1 := by
          intro l'
          have : (fun r_1 => if r_1 ∈ l' then none else if r_1 = r then none else w.disk r_1) = fun r_1 => if r_1 = r ∨ r_1 ∈ l' then none else w.disk r_1 := by
            funext x
            by_cases h1 : x ∈ l' <;> by_cases h2 : x = r <;> simp [h1, h2]
          simp only [dropped, List.mem_singleton, List.mem_cons, List.reverse_cons, List.reverse_nil, List.nil_append, List.append_assoc,
            List.length_cons, List.length_nil, this, List.cons_append]
          simp [Nat.add_comm, Nat.add_left_comm]
          exact this
        refine (pruneLoop_run l (dropped w [r] 0) ?_ hn.2).mono ?_ ?_
        · intro x hx
          have : x ≠ r := fun e => hn.1 (e ▸ hx)
          simpa [dropped, this] using hd x (by simp [hx])
        · rintro _ w' rfl
          exact (e2 l).1
        · rintro e w' ⟨h1, h2, pre, r', post, rfl, h4⟩
          exact ⟨h1, h2, r :: pre, r', post, rfl, h4.trans (e2 pre).2⟩

/-- `Prune`: the stale nodes are discarded, each once, and nothing else is. If DiscardNode fails, some of them are; the list stays as it was. -/
theorem prune_run (hI : I P w0 T w ρ R) (hT : T.2 = 0) :
    Res (prune P.τ w)
      (fun _ w' => ∃ l, l.Perm (w.trees P.τ).stale ∧ w' = (dropped w l 0).setT P.τ { w.trees P.τ with stale := [] } ∧ I P w' (R.2.2.1, 0) w' ρ R)
      (fun e w' => e = .discardNode ∧ (∃ n, w.env.discardFails n = true) ∧ ∃ pre r post, (pre ++ r :: post).Perm (w.trees P.τ).stale ∧ w' = dropped w pre 1 ∧
        ∃ SP, SP.map Prod.fst = ((r :: post : List Ref) : Multiset Ref) ∧ I P w' (SP + R.2.2.1, 1) w' ρ R) := by
  obtain ⟨SP, h1, h2⟩ := hI.stale
  replace h1 := h1 hT
  have hnd := hI.nodup
  rw [← h2, Multiset.map_add, ← h1, Multiset.nodup_add] at hnd
  have hap : ∀ l : List Ref, (∀ x ∈ l, x ∈ (w.trees P.τ).stale) → ∀ p ∈ R.2.2.1, p.1 ∉ l := by
    intro l hl p hp h
    exact Multiset.disjoint_left.1 hnd.2.2 (by simpa using hl _ h) (Multiset.mem_map_of_mem _ hp)
  unfold prune pruneWhileLocked
  rw [getT_bind]
  obtain ⟨l, hl, hlp⟩ := ranged_run (w.trees P.τ).stale w
  rw [bind_ok hl]
  refine (pruneLoop_run l w ?_ (hlp.nodup_iff.2 (by simpa using hnd.1))).bind ?_ ?_
  · intro r hr
    have : r ∈ SP.map Prod.fst := by rw [← h1]; simpa using hlp.subset hr
    obtain ⟨p, hp, rfl⟩ := Multiset.mem_map.1 this
    rw [(hI.disk p (h2 ▸ Multiset.mem_add.2 (.inl hp))).1]
    simp
  · rintro e w' ⟨g1, g2, pre, r, post, g3, rfl⟩
    replace g3 : (pre ++ r :: post).Perm (w.trees P.τ).stale := g3 ▸ hlp
    refine ⟨g1, g2, pre, r, post, g3, rfl, SP.filter (fun p => p.1 ∉ pre), ?_, .refl _ _, hI.root, hI.st.same rfl rfl rfl, ⟨hI.lru.is, hI.lru.nodup, hI.lru.lt⟩,
      ⟨_, fun h => absurd h (by simp), rfl⟩, ?_, ?_, hI.cached, hI.min, hI.max⟩
    · have hn : (pre ++ r :: post).Nodup := g3.nodup_iff.2 (by simpa using hnd.1)
      rw [show SP.filter (fun p => p.1 ∉ pre) = SP.filter ((fun x => x ∉ pre) ∘ Prod.fst) from rfl, ← Multiset.filter_map, ← h1, ← Multiset.coe_eq_coe.2 g3, Multiset.filter_coe, List.filter_append]
      rw [List.nodup_append] at hn
      have e1 : pre.filter (fun x => decide (x ∉ pre)) = [] := by simp
      have e2 : (r :: post).filter (fun x => decide (x ∉ pre)) = r :: post := by
        rw [List.filter_eq_self]
        intro x hx
        simpa using fun hp => hn.2.2 x hp x hx rfl
      rw [e1, e2, List.nil_append]
    · have hn := hI.nodup
      rw [← h2] at hn
      exact Multiset.nodup_of_le (Multiset.map_le_map (Multiset.add_le_add_right (Multiset.filter_le _ _))) hn
    · intro p hp
      have hp' : p ∈ T.1 := by
        rw [← h2]
        rcases Multiset.mem_add.1 hp with h | h
        · exact Multiset.mem_add.2 (.inl (Multiset.mem_filter.1 h).1)
        · exact Multiset.mem_add.2 (.inr h)
      have hn : p.1 ∉ pre := by
        rcases Multiset.mem_add.1 hp with h | h
        · exact (Multiset.mem_filter.1 h).2
        · exact hap pre (fun x hx => g3.subset (by simp [hx])) p h
      refine ⟨?_, (hI.disk p hp').2⟩
      show (if p.1 ∈ pre then none else w.disk p.1) = _
      rw [if_neg hn, (hI.disk p hp').1]
  · rintro _ w' rfl
    refine Res.ok (modT_run _ _ _) ⟨l, hlp, rfl, .refl _ _, ?_, ?_, ?_, ⟨0, fun _ => ?_, by simp⟩, hnd.2.1, ?_, ?_, ?_, ?_⟩
    · simp only [setT_trees, upd_same]; exact hI.root
    · exact hI.st.same rfl rfl rfl
    · exact ⟨hI.lru.is, hI.lru.nodup, hI.lru.lt⟩
    · simp only [setT_trees, upd_same]; rfl
    · intro p hp
      have := hI.disk p (h2 ▸ Multiset.mem_add.2 (.inr hp))
      refine ⟨?_, this.2⟩
      show (if p.1 ∈ l then none else w.disk p.1) = _
      rw [if_neg (hap l (fun _ h => hlp.subset h) p hp), this.1]
    · simp only [setT_trees, upd_same]; exact hI.cached
    · simp only [setT_trees, upd_same]; exact hI.min
    · simp only [setT_trees, upd_same]; exact hI.max

/-! ### Discard -/

/-- `discardNode`: every page of the tree goes to the stale list. -/
theorem discardNode_run : ∀ {h : Nat} {q : Pos} (t : Gt K V h) {w : World K V} {R : B K V} {fuel : Nat}, h < fuel →
    I P w0 T w ρ (bun P q t + R) → t.odds = 0 → Ord P.toCmp t.erase.seq →
    Res (discardNode P.cmp P.τ fuel t.id w) (fun _ w' => I P w0 T w' ρ R) (fun e w' => Faulty w0 e ∧ ∃ X, I P w0 T w' ρ (X + R))
  | h, q, t, w, R, 0, hf, _, _, _ => by omega
  | h, q, t, w, R, fuel + 1, hf, hI, hz, ho => by
      unfold discardNode
      refine (visit_run false hI hz ho).bind ?_ ?_
      · rintro e w' ⟨h1, h2⟩
        exact ⟨h1, _, h2⟩
      rintro _ w1 ⟨t1, hl, hs, h1⟩
      rw [← hs.erase] at ho
      rw [← hs.odds] at hz
      rw [← hs.id]
      cases h with
      | zero =>
        rcases t1.cases0 with ⟨i, d, rfl⟩ | ⟨i, st, l, rfl⟩ | ⟨i, o, l, rfl⟩
        · cases hl
        · rw [id_leaf]
          have e1 : eachChild 1123 i (discardNode P.cmp P.τ fuel) w1 = (.ok (), w1) := by
            rw [eachChild, getN_bind, h1.isLeaf.leaf]; rfl
          rw [bind_ok e1]
          rw [bun_leaf, leafB] at h1
          obtain ⟨w2, e2, h2⟩ := h1.markDiscard (c := mkCell P q i st (.leaf l.length l)) rfl
          rw [add_assoc] at h2
          exact Res.ok e2 h2.forget.forgetOff
        · simp at hz
      | succ h =>
        rcases t1.casesS with ⟨i, d, rfl⟩ | ⟨i, st, r, rfl⟩ | ⟨i, o, l, rfl⟩
        · cases hl
        · have hw : I P w0 T w1 ρ (innerB P q i st (r.map Gt.kid) + (kidsB P i r.kids + R)) := by
            rw [bun_inner, add_assoc] at h1; exact h1
          rw [erase_inner] at ho
          have hok : ∀ c ∈ r.kids, Ord P.toCmp c.erase.seq := fun c hc => ho.kid (by simpa using ⟨c, hc, rfl⟩)
          rw [id_inner]
          refine (eachChild_walk (A := fun R w => I P w0 T w ρ R) (P := P) (fun h => h.cell) (fun _ : Unit => 0) (fun X : B K V => X)
            (Q := fun t g => True) (E := fun e t g => Faulty w0 e)
            (κ := r.map Gt.kid) (L := r.kids) (by simp) 1123
            (f := discardNode P.cmp P.τ fuel) ?_ hw).bind ?_ ?_
          · intro c hc R w hI
            refine (discardNode_run c (by omega) hI (odds_kid hz hc) (hok c hc)).mono ?_ ?_
            · intro _ w' h; exact ⟨(), trivial, by simpa using h⟩
            · rintro e w' ⟨g1, X, g2⟩
              exact ⟨X, g1, g2⟩
          · rintro e w' ⟨pre, c, post, as, X, hL, hQ, hfe, hI'⟩
            exact ⟨hfe, _, hI'.eq (by rw [← add_assoc, ← add_assoc] : _ = innerB P q i st (r.map Gt.kid) + (((as.map fun _ : Unit => (0 : B K V)).sum + X) + kidsB P i post) + R)⟩
          · rintro _ w' ⟨L, hL, hI'⟩
            have e0 : ((L.map fun _ : Unit => (0 : B K V)).sum) = 0 := List.sum_eq_zero (by
              intro o ho
              obtain ⟨x, hx, rfl⟩ := List.mem_map.1 ho
              rfl)
            rw [e0, zero_add, innerB] at hI'
            obtain ⟨w2, e2, h2⟩ := hI'.markDiscard (c := mkCell P q i st (r.map Gt.kid).body) rfl
            rw [add_assoc] at h2
            exact Res.ok e2 h2.forget.forgetOff
        · simp [odds_odInner] at hz

/-- `Discard`, when no callback fails while it is running. -/
theorem discard_run {g : Gt K V H} (hr : Rest P w0 T R g w) (hT : T.2 = 0) {fuel : Nat} (hf : H < fuel) (hg : ∀ n, w.env.getFails n = false)
    (hu : ∀ n, w.env.unpackFails n = false) (hd : ∀ n, w.env.discardFails n = false) :
    ∃ (w1 w' : World K V) (l : List Ref), l.Perm (w1.trees P.τ).stale ∧ discard P.cmp P.τ fuel w = (.ok (), w') ∧
      Quiet P.τ w w1 ∧ (∃ SP, (((w1.trees P.τ).stale : List Ref) : Multiset Ref) = SP.map Prod.fst ∧ SP + R.2.2.1 = T.1) ∧
      w' = (dropped w1 l 0).setT P.τ { w1.trees P.τ with root := none, stale := [], cached := false } ∧
      St w' R.1 R.2.2.2 ∧ Cache w' R.2.1 ∧ (∀ p ∈ R.2.2.1, w'.disk p.1 = some p.2 ∧ p.1.len ≠ 0) := by
  unfold discard
  rw [bind_ok hr.root]
  have hfa : ∀ e, ¬ Faulty w e := by
    rintro e (⟨-, n, h⟩ | ⟨-, n, h⟩)
    · rw [hg] at h; cases h
    · rw [hu] at h; cases h
  rcases (discardNode_run g hf hr.rebase.I hr.odds hr.ord).cases with ⟨a, w1, e1, h1⟩ | ⟨e, w1, -, h1, -⟩
  · replace h1 := (h1.forgetSlot : I P w T w1 (some g.id) R)
    rw [bind_ok (attempt_ok e1)]
    rcases (prune_run h1 hT).cases with ⟨a, w2, e2, l, hl, e3, h2⟩ | ⟨e, w2, -, -, ⟨n, h⟩, -⟩
    · have e2' : pruneWhileLocked P.τ w1 = (.ok a, w2) := e2
      rw [bind_ok e2']
      refine ⟨w1, _, l, hl, modT_run _ _ _, h1.evo, h1.stale.imp fun _ h => ⟨h.1 hT, h.2⟩, ?_, h2.st.same rfl rfl rfl, ⟨h2.lru.is, h2.lru.nodup, h2.lru.lt⟩, h2.disk⟩
      rw [e3]
      simp only [World.setT, upd_same]
      congr 1
      funext σ
      by_cases hσ : σ = P.τ
      · subst hσ; rw [upd_same, upd_same]
      · simp [upd, hσ]
    · rw [h1.evo.disF, hd] at h; cases h
  · exact absurd h1 (hfa e)

end

end SM.BT

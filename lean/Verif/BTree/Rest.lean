import Verif.BTree.Due
import Verif.LLRB.History

/-! A tree between calls, and the calls that do not change what it contains. -/

namespace SM.BT

open Spec (at? below above find has rejects Agrees AgreesE Refused stepE Op Ans)

variable {K V : Type}

/-! ### A list around the leaf responsible for a key -/

section
variable {cmp : Compare K} {Valid : K → Prop} (LW : Lawful cmp Valid) {A l Z : List (K × V)} {key : K}
include LW

theorem around_ne (hk : Valid key) (hv : AllValid Valid (A ++ l ++ Z)) (h1 : AllLt cmp A key) (h2 : AllGt cmp key Z) :
    (∀ p ∈ A, eqb cmp key p.1 = false) ∧ ∀ p ∈ Z, eqb cmp key p.1 = false := by
  rw [AllValid_append, AllValid_append] at hv
  exact ⟨fun p hp => LW.eqb_false_of_gt hk (hv.1.1 p hp) (h1 p hp), fun p hp => LW.eqb_false_of_lt hk (hv.2 p hp) (h2 p hp)⟩

theorem around_find (hk : Valid key) (hv : AllValid Valid (A ++ l ++ Z)) (h1 : AllLt cmp A key) (h2 : AllGt cmp key Z) :
    find cmp key (A ++ l ++ Z) = find cmp key l := by
  obtain ⟨e1, e2⟩ := around_ne LW hk hv h1 h2
  have a1 : A.find? (fun p => eqb cmp key p.1) = none := List.find?_eq_none.2 fun p hp => by simp [e1 p hp]
  have a2 : Z.find? (fun p => eqb cmp key p.1) = none := List.find?_eq_none.2 fun p hp => by simp [e2 p hp]
  simp [find, List.find?_append, a1, a2]

theorem around_has (hk : Valid key) (hv : AllValid Valid (A ++ l ++ Z)) (h1 : AllLt cmp A key) (h2 : AllGt cmp key Z) :
    has cmp key (A ++ l ++ Z) = has cmp key l := by
  rw [has, around_find LW hk hv h1 h2]; rfl

theorem around_below (hk : Valid key) (hv : AllValid Valid (A ++ l ++ Z)) (h1 : AllLt cmp A key) (h2 : AllGt cmp key Z) :
    below cmp key (A ++ l ++ Z) = A ++ below cmp key l := by
  rw [AllValid_append, AllValid_append] at hv
  rw [below_append, below_append, below_eq_self h1, below_eq_nil LW hv.2 hk h2, List.append_nil]

theorem around_above (hk : Valid key) (hv : AllValid Valid (A ++ l ++ Z)) (h1 : AllLt cmp A key) (h2 : AllGt cmp key Z) :
    above cmp key (A ++ l ++ Z) = above cmp key l ++ Z := by
  rw [AllValid_append, AllValid_append] at hv
  rw [above_append, above_append, above_eq_self h2, above_eq_nil LW hv.1.1 hk h1, List.nil_append]

theorem around_setKey (hk : Valid key) (hv : AllValid Valid (A ++ l ++ Z)) (h1 : AllLt cmp A key) (h2 : AllGt cmp key Z) (v : V) :
    Spec.setKey cmp key v (A ++ l ++ Z) = A ++ Spec.setKey cmp key v l ++ Z := by
  obtain ⟨e1, e2⟩ := around_ne LW hk hv h1 h2
  have a1 : A.map (fun p => if eqb cmp key p.1 then (p.1, v) else p) = A := by
    conv => rhs; rw [← List.map_id A]
    exact List.map_congr_left fun p hp => by simp [e1 p hp]
  have a2 : Z.map (fun p => if eqb cmp key p.1 then (p.1, v) else p) = Z := by
    conv => rhs; rw [← List.map_id Z]
    exact List.map_congr_left fun p hp => by simp [e2 p hp]
  simp only [Spec.setKey, List.map_append, a1, a2]

theorem around_del (hk : Valid key) (hv : AllValid Valid (A ++ l ++ Z)) (h1 : AllLt cmp A key) (h2 : AllGt cmp key Z) :
    (A ++ l ++ Z).filter (fun p => !eqb cmp key p.1) = A ++ l.filter (fun p => !eqb cmp key p.1) ++ Z := by
  obtain ⟨e1, e2⟩ := around_ne LW hk hv h1 h2
  rw [List.filter_append, List.filter_append, (List.filter_eq_self (l := A)).2 (fun p hp => by simp [e1 p hp]),
    (List.filter_eq_self (l := Z)).2 (fun p hp => by simp [e2 p hp])]

omit LW in
theorem rejects_nil : rejects cmp key ([] : List (K × V)) = false := rfl
end

theorem around_at {A l Z : List (K × V)} {n k : Nat} (e : n = A.length + k) (hk : k < l.length) :
    at? (n : Int) (A ++ l ++ Z) = some l[k] := by
  rw [at?_nat, e, List.append_assoc, List.getElem?_append_right (by omega), List.getElem?_append_left (by omega)]
  simp [hk]

/-! ### The leaf's own list -/

section
variable {cmp : Compare K} {l : List (K × V)} {key : K}

theorem find_leafKv : find cmp key (leafKv l) = (find cmp key l).map fun p => (p.1, .item p.2) := by
  simp only [find, leafKv, List.find?_map]; rfl
theorem has_leafKv : has cmp key (leafKv l) = has cmp key l := by rw [has, find_leafKv, Option.isSome_map]; rfl
theorem below_leafKv : below cmp key (leafKv l) = leafKv (below cmp key l) := by
  simp only [below, leafKv, List.filter_map]; rfl
theorem above_leafKv : above cmp key (leafKv l) = leafKv (above cmp key l) := by
  simp only [above, leafKv, List.filter_map]; rfl
theorem setKey_leafKv (v : V) : Spec.setKey cmp key (.item v) (leafKv l) = leafKv (Spec.setKey cmp key v l) := by
  simp only [Spec.setKey, leafKv, List.map_map]
  apply List.map_congr_left
  intro p _
  simp only [Function.comp]; split <;> rfl
theorem setIndex_leafKv (i : Int) (v : V) : Spec.setIndex i (.item v) (leafKv l) = leafKv (Spec.setIndex i v l) := by
  simp only [Spec.setIndex, leafKv]
  generalize i.toNat = n
  induction l generalizing n with
  | nil => simp
  | cons p l ih => cases n with
    | zero => simp
    | succ n => simp [ih]
theorem at_leafKv (i : Int) : at? i (leafKv l) = (at? i l).map fun p => (p.1, .item p.2) := by
  simp only [at?]; split <;> simp [leafKv]
end

section
variable {P : Par K} {h H : Nat} {w0 : World K V} {T : Tot K V} {w : World K V} {ρ : Option Id} {R : B K V}

theorem Par.min_pos (P : Par K) : 0 < P.min := by have := P.four; simp only [Par.min]; omega

theorem Ord.flat {p : Pt K V h} (ho : Ord P.toCmp p.seq) : Spec.Sorted P.cmp p.flat ∧ AllValid P.Valid p.flat := by
  rw [← pick_seq]
  constructor
  · refine List.Pairwise.filterMap _ (R := Before P.toCmp) ?_ ho.1
    intro a b hab x hx y hy
    cases a with
    | inr k => simp at hx
    | inl p => cases b with
      | inr k => simp at hy
      | inl q => simp at hx hy; subst hx hy; exact hab
  · intro q hq
    exact ho.2 _ (mem_pick.1 hq)

theorem Pt.Occ.flat_ne {min max : Nat} (hm : 0 < min) : ∀ {h : Nat} {p : Pt K V h}, p.Occ min max → p.flat ≠ []
  | 0, p, hp => by
      obtain ⟨l, e⟩ := p.cases0
      rw [e] at hp ⊢
      rw [occ_leaf] at hp
      intro h0; rw [flat_leaf] at h0; rw [h0] at hp; simp at hp; omega
  | h + 1, p, hp => by
      obtain ⟨r, e⟩ := p.casesS
      rw [e] at hp ⊢
      rw [occ_inner] at hp
      have := (hp.2 r.c0 (by simp [Row.kids])).flat_ne hm
      simp [Row.kids, this]

theorem Pt.RootOcc.flat_ne {min max : Nat} (hm : 0 < min) {p : Pt K V h} (hp : p.RootOcc min max) (h0 : h ≠ 0) : p.flat ≠ [] := by
  obtain ⟨h, rfl⟩ : ∃ k, h = k + 1 := ⟨h - 1, by omega⟩
  obtain ⟨r, e⟩ := p.casesS
  rw [e] at hp ⊢
  rw [rootOcc_inner] at hp
  have := (hp.2 r.c0 (by simp [Row.kids])).flat_ne hm
  simp [Row.kids, this]

/-- The tree between two calls; `T` are the pages it owns, `R` what belongs to others. -/
structure Rest (P : Par K) (w0 : World K V) (T : Tot K V) (R : B K V) {H : Nat} (g : Gt K V H)
    (w : World K V) : Prop where
  I : I P w0 T w (some g.id) (bun P ⟨none, true⟩ g + (slotB {g.id} + R))
  clean : g.Clean
  odds : g.odds = 0
  occ : g.erase.RootOcc P.min P.max
  ord : Ord P.toCmp g.erase.seq

variable {g : Gt K V H}

theorem Rest.rebase (h : Rest P w0 T R g w) : Rest P w T R g w := ⟨h.I.rebase, h.clean, h.odds, h.occ, h.ord⟩
theorem Rest.trans {w1 : World K V} {T' R'} {H' : Nat} {g' : Gt K V H'} (h : Rest P w0 T R g w1) (h' : Rest P w1 T' R' g' w) :
    Rest P w0 T' R' g' w := ⟨h.I.trans h'.I, h'.clean, h'.odds, h'.occ, h'.ord⟩

theorem Rest.sim {g' : Gt K V H} {w' : World K V} (hr : Rest P w0 T R g w) (hs : Sim P g g')
    (hI : BT.I P w0 T w' (some g.id) (bun P ⟨none, true⟩ g' + (slotB {g.id} + R))) : Rest P w0 T R g' w' :=
  ⟨by rw [hs.id]; exact hI, hs.clean hr.clean, by rw [hs.odds]; exact hr.odds, by rw [hs.erase]; exact hr.occ,
   by rw [hs.erase]; exact hr.ord⟩

/-- The same tree afterwards, with perhaps other parts of it loaded. -/
def Same (P : Par K) (w0 : World K V) (T : Tot K V) (R : B K V) (g : Gt K V H) (w : World K V) : Prop :=
  ∃ g', Sim P g g' ∧ Rest P w0 T R g' w

theorem Rest.failed (hr : Rest P w0 T R g w) {w' : World K V} (hf : Failed P w0 T (some g.id) (slotB {g.id} + R) g w') :
    Same P w0 T R g w' := by
  obtain ⟨g', h1, h2⟩ := hf
  exact ⟨g', h1, hr.sim h1 h2⟩

theorem Rest.atLeaf (hr : Rest P w0 T R g w) {w' : World K V} {C : Ctx K V H 0} {i : Id} {st : Option Ref} {l : List (K × V)}
    (hf : AtLeaf P w0 T (some g.id) (slotB {g.id} + R) g C i st l w') : Same P w0 T R g w' :=
  hr.failed (.of hf.1 hf.2)

theorem Rest.root (hr : Rest P w0 T R g w) : rootOf P.τ w = (.ok g.id, w) := by
  unfold rootOf
  simp only [getT_bind, hr.I.root]
  rfl

theorem AtLeaf.flat {w' : World K V} {C : Ctx K V H 0} {i : Id} {st : Option Ref} {l : List (K × V)}
    (hf : AtLeaf P w0 T ρ R g C i st l w') : g.erase.flat = C.lflat ++ l ++ C.rflat := by
  rw [← hf.1.erase, Ctx.plug_flat, erase_leaf, flat_leaf]

theorem AtLeaf.ord {w' : World K V} {C : Ctx K V H 0} {i : Id} {st : Option Ref} {l : List (K × V)}
    (hf : AtLeaf P w0 T ρ R g C i st l w') (ho : Ord P.toCmp g.erase.seq) : Spec.Sorted P.cmp l ∧ AllValid P.Valid l := by
  rw [← hf.1.erase] at ho
  exact (ord_plug ho).leaf

theorem Rest.rejects (hr : Rest P w0 T R g w) {key : K} (hk : P.Valid key) : rejects P.cmp key g.erase.flat = false :=
  LLRB.Tree.rejects_valid P.law hk hr.ord.flat.2

/-- The descent by key from the root. -/
theorem Rest.byKey (hr : Rest P w0 T R g w) (mark : Bool) (key : K) {fuel : Nat} (hf : H < fuel) :
    Res (keyDescend P.cmp P.τ mark key fuel g.id [] w)
      (fun a w' => ∃ (C' : Ctx K V H 0) (i : Id) (st : Option Ref) (l : List (K × V)), a = (i, C'.stack) ∧
        (P.Valid key → C'.Fits P key) ∧ (P.Valid key ∨ H = 0) ∧ AtLeaf P w0 T (some g.id) (slotB {g.id} + R) g C' i st l w')
      (fun e w' => (Faulty w0 e ∨ (Spec.rejects P.cmp key g.erase.flat = true ∧ Rejected P key e)) ∧ Same P w0 T R g w') := by
  refine (keyDescend_run mark key g .top g (w := w) (R := slotB {g.id} + R) hf (by simpa [Ctx.pos, Ctx.bun] using hr.I) (.refl g) hr.ord
    hr.odds (hr.occ.ne P.min_pos) (fun _ => Ctx.Fits.top key)).mono (fun a w' h => h) ?_
  rintro e w' ⟨h1, h2⟩
  refine ⟨h1.imp_right ?_, hr.failed h2⟩
  rintro ⟨h3, hrej, h4⟩
  exact ⟨LLRB.Tree.rejects_invalid P.law h3 (hr.occ.flat_ne P.min_pos h4), hrej⟩

/-- The descent by index from the root. -/
theorem Rest.byIndex (hr : Rest P w0 T R g w) (mark : Bool) {k : Nat} (hk : k < g.erase.flat.length) {fuel : Nat} (hf : H + P.max < fuel) :
    Res (indexDescend P.cmp P.τ mark fuel g.id k [] w)
      (fun a w' => ∃ (C' : Ctx K V H 0) (i : Id) (st : Option Ref) (l : List (K × V)) (k' : Nat), a = (i, k', C'.stack) ∧
        k = C'.lflat.length + k' ∧ k' < l.length ∧ AtLeaf P w0 T (some g.id) (slotB {g.id} + R) g C' i st l w')
      (fun e w' => Faulty w0 e ∧ Same P w0 T R g w') := by
  refine (indexDescend_run mark g .top g (w := w) (R := slotB {g.id} + R) (fuel := fuel) (k := k) (by omega) (by simpa [Ctx.pos, Ctx.bun] using hr.I) (.refl g) hr.ord
    hr.odds (hr.occ.ne P.min_pos) hk).mono ?_ ?_
  · rintro a w' ⟨C', i, st, l, k', h1, h2, h3, h4⟩
    exact ⟨C', i, st, l, k', h1, by simpa [Ctx.lflat] using h2, h3, h4⟩
  · rintro e w' ⟨h1, h2⟩
    exact ⟨h1, hr.failed h2⟩

theorem Rest.items (hr : Rest P w0 T R g w) : (w.node g.id).items = g.erase.flat.length := hr.I.items

theorem Rest.outOfRange (hr : Rest P w0 T R g w) (i : Int) :
    outOfRange P.τ i w = (.ok !(at? i g.erase.flat).isSome, w) := by
  unfold BT.outOfRange
  rw [bind_ok hr.root]
  simp only [getN_bind, hr.items, pure_run]
  congr 2
  simp only [at?]
  split
  · rename_i h; simp [h]
  · rename_i h
    simp only [h, decide_false, Bool.false_or]
    by_cases hh : i.toNat < g.erase.flat.length
    · simp [hh]; omega
    · simp [hh]; omega

theorem at_nat {i : Int} {l : List (K × V)} (h : (at? i l).isSome = true) : ∃ k : Nat, i = k ∧ i.toNat = k ∧ k < l.length := by
  simp only [at?] at h
  split at h
  · simp at h
  · rename_i hh
    refine ⟨i.toNat, by omega, rfl, ?_⟩
    by_cases hk : i.toNat < l.length
    · exact hk
    · simp [hk] at h

/-- How a call that only reads ends. -/
def ReadPost (P : Par K) (w0 : World K V) (T : Tot K V) (R : B K V) (g : Gt K V H) (op : Op K V)
    (r : Out (Ans K V × Option Err) × World K V) : Prop :=
  Res r
    (fun a w' => AgreesE P.cmp op a (stepE P.cmp g.erase.flat op).1 ∧ Same P w0 T R g w')
    (fun e w' => (Faulty w0 e ∨ ((stepE P.cmp g.erase.flat op).1 = none ∧ Refused P.cmp op e)) ∧ Same P w0 T R g w')

theorem getByKey_run (hr : Rest P w0 T R g w) {fuel : Nat} (hf : H < fuel) (key : K) :
    ReadPost P w0 T R g (.getByKey key) (step P.cmp P.τ fuel (.getByKey key) w) := by
  simp only [step, getByKey, bind_assoc_run, ReadPost, stepE, Op.key?]
  rw [bind_ok hr.root]
  refine (hr.byKey true key hf).bind ?_ ?_
  · rintro e w' ⟨h1, h2⟩
    exact ⟨h1.imp_right (fun h => ⟨by simp [h.1], key, rfl, h.2⟩), h2⟩
  · rintro a w' ⟨C, i, st, l, rfl, hfit, hv, h1⟩
    have hsame := hr.atLeaf h1
    have hfl := h1.flat
    obtain ⟨hs, hvl⟩ := h1.ord hr.ord
    obtain ⟨tr, ht1, ht2, ht3⟩ := h1.2.isLeaf.kv
    dsimp only
    rw [bind_ok (kvOf_run ht1)]
    by_cases hk : P.Valid key
    · rw [LLRB.Tree.getByKey_spec P.law hk ht2.valid ht2.sorted, ht3, find_leafKv]
      have hfind : find P.cmp key g.erase.flat = find P.cmp key l := by
        rw [hfl]; exact around_find P.law hk (hfl ▸ hr.ord.flat.2) (hfit hk).lt (hfit hk).gt
      rw [hr.rejects hk]
      cases hq : find P.cmp key l with
      | none => exact Res.ok rfl ⟨by simp [AgreesE, Spec.step, hfind, hq], hsame⟩
      | some p => exact Res.ok rfl ⟨by simp [AgreesE, Spec.step, hfind, hq], hsame⟩
    · obtain rfl := hv.resolve_left hk
      cases C with
      | top =>
        simp only [Ctx.lflat, Ctx.rflat, List.nil_append, List.append_nil] at hfl
        rw [hfl]
        by_cases hl : l = []
        · subst hl
          have : tr = .nil := by cases tr with | nil => rfl | node => simp [leafKv] at ht3
          subst this
          exact Res.ok rfl ⟨by simp [AgreesE, Spec.step, rejects_nil, find], hsame⟩
        · obtain ⟨e, he, kx, -, hkx⟩ := LLRB.Tree.getByKey_invalid P.law hk (t := tr) (by rintro rfl; exact hl (by simpa [leafKv] using ht3.symm))
          rw [he]
          exact Res.err rfl ⟨.inr ⟨by rw [LLRB.Tree.rejects_invalid P.law hk hl]; simp, key, rfl, kx.1, hkx⟩, hsame⟩
      | fr id st' pre post up => have := up.le; omega

/-- Without a valid key the leaf is the root. -/
theorem AtLeaf.invalid {w' : World K V} {C : Ctx K V H 0} {i : Id} {st : Option Ref} {l : List (K × V)}
    (hf : AtLeaf P w0 T ρ R g C i st l w') (h0 : H = 0) : g.erase.flat = l ∧ C.lflat = [] := by
  subst h0
  cases C with
  | top => have := hf.flat; simp only [Ctx.lflat, Ctx.rflat, List.nil_append, List.append_nil] at this; exact ⟨this, rfl⟩
  | fr id st' pre post up => have := up.le; omega

theorem getByIndex_run (hr : Rest P w0 T R g w) {fuel : Nat} (hf : H + P.max < fuel) (i : Int) :
    ReadPost P w0 T R g (.getByIndex i) (step P.cmp P.τ fuel (.getByIndex i) w) := by
  simp only [step, getByIndex, bind_assoc_run, ReadPost, stepE, Op.key?]
  rw [bind_ok (hr.outOfRange i)]
  cases hi : (at? i g.erase.flat).isSome with
  | false =>
    rw [Bool.not_false, if_pos rfl]
    exact Res.ok rfl ⟨by have := Option.isSome_eq_false_iff.1 hi; simp [AgreesE, Spec.step, Option.isNone_iff_eq_none.1 this], g, .refl g, hr⟩
  | true =>
    rw [Bool.not_true, if_neg (by simp), bind_assoc_run, bind_ok hr.root]
    obtain ⟨k, hk1, hk2, hk3⟩ := at_nat hi
    rw [hk2, bind_assoc_run]
    refine (hr.byIndex true hk3 hf).bind ?_ ?_
    · rintro e w' ⟨h1, h2⟩
      exact ⟨.inl h1, h2⟩
    · rintro a w' ⟨C, i', st, l, k', rfl, e1, hk', h1⟩
      have hfl := h1.flat
      have hat : at? i g.erase.flat = some l[k'] := by rw [hk1, hfl]; exact around_at e1 hk'
      have hat2 : at? (k' : Int) l = some l[k'] := by rw [at?_nat]; simp [hk']
      dsimp only
      rw [bind_assoc_run, bind_ok (kvGet_run h1.2.isLeaf.kv _), at_leafKv, hat2]
      simp only [Option.map_some]
      exact Res.ok rfl ⟨by simp [AgreesE, Spec.step, hat], hr.atLeaf h1⟩

theorem len_run (hr : Rest P w0 T R g w) (fuel : Nat) :
    ReadPost P w0 T R g .len (step P.cmp P.τ fuel .len w) := by
  simp only [step, len, bind_assoc_run, ReadPost, stepE, Op.key?]
  rw [bind_ok hr.root]
  refine (visit_run false hr.I hr.odds hr.ord).bind ?_ ?_
  · rintro e w' ⟨h1, h2⟩
    exact ⟨.inl h1, g, .refl g, hr.sim (.refl g) h2⟩
  · rintro _ w' ⟨g', h1, h2, h3⟩
    have := hr.sim h2 h3
    simp only [getN_bind]
    have hi := this.items
    rw [h2.id] at hi
    exact Res.ok rfl ⟨by simp [AgreesE, Spec.step, hi, h2.erase], g', h2, this⟩

theorem bisectLeft_run (hr : Rest P w0 T R g w) {fuel : Nat} (hf : H + P.max < fuel) (key : K) :
    ReadPost P w0 T R g (.bisectLeft key) (step P.cmp P.τ fuel (.bisectLeft key) w) := by
  simp only [step, bisectLeft, bind_assoc_run, ReadPost, stepE, Op.key?]
  rw [bind_ok hr.root]
  refine (bisectLoop_run key g .top g (w := w) (R := slotB {g.id} + R) (fuel := fuel) (by omega) (by simpa [Ctx.pos, Ctx.bun] using hr.I)
    (.refl g) hr.ord hr.odds (hr.occ.ne P.min_pos) (fun _ => Ctx.Fits.top key) ?_).bind ?_ ?_
  · intro tr ht
    by_cases hk : P.Valid key
    · refine .inl ?_
      rw [LLRB.Tree.bisectLeft_spec P.law ht hk]
      split <;> exact ⟨_, _, rfl⟩
    · by_cases hn : tr = .nil
      · subst hn; exact .inl ⟨_, _, rfl⟩
      · obtain ⟨e, he, k, -, hek⟩ := LLRB.Tree.bisectLeft_invalid P.law hk hn
        exact .inr ⟨hk, _, _, e, he, ⟨k.1, hek⟩, LLRB.Tree.toList_ne_nil hn⟩
  · rintro e w' ⟨h1, h2⟩
    refine ⟨h1.imp_right ?_, hr.failed h2⟩
    rintro ⟨h3, hrej, h4⟩
    refine ⟨?_, key, rfl, hrej⟩
    rw [LLRB.Tree.rejects_invalid P.law h3 (by by_cases h0 : H = 0; exact h4 h0; exact hr.occ.flat_ne P.min_pos h0)]
    rfl
  · rintro ⟨a1, a2⟩ w' ⟨C, i, st, l, tr, j, ht2, ht3, hF, ha, hfit, hv, h1⟩
    refine Res.ok rfl ⟨?_, hr.atLeaf h1⟩
    have hfl := h1.flat
    by_cases hk : P.Valid key
    · rw [LLRB.Tree.bisectLeft_spec P.law ht2 hk, ht3, has_leafKv, below_leafKv, leafKv_length] at hF
      have hval := hfl ▸ hr.ord.flat.2
      rw [hr.rejects hk, hfl]
      simp only [Bool.false_eq_true, if_false, Spec.step, around_has P.law hk hval (hfit hk).lt (hfit hk).gt,
        around_below P.law hk hval (hfit hk).lt (hfit hk).gt, List.length_append]
      cases hh : has P.cmp key l with
      | true => simp [hh] at hF; simp [AgreesE]; exact ⟨by omega, hF.2⟩
      | false => simp [hh] at hF; simp [AgreesE]; exact ⟨by omega, hF.2⟩
    · obtain ⟨e1, e2⟩ := h1.invalid (hv.resolve_left hk)
      rw [e1]
      have hl : l = [] := by
        by_cases hl : l = []
        · exact hl
        · obtain ⟨e, he, -⟩ := LLRB.Tree.bisectLeft_invalid P.law hk (t := tr) (by rintro rfl; exact hl (by simpa [leafKv] using ht3.symm))
          rw [he] at hF; simp at hF
      subst hl
      have : tr = .nil := by cases tr with | nil => rfl | node => simp [leafKv] at ht3
      subst this
      simp [LLRB.Tree.bisectLeft] at hF
      rw [e2] at ha
      simp [rejects_nil, Spec.step, has, find, below, AgreesE]
      simp at ha
      exact ⟨by omega, hF.2⟩

theorem bisectRight_run (hr : Rest P w0 T R g w) {fuel : Nat} (hf : H + P.max < fuel) (key : K) :
    ReadPost P w0 T R g (.bisectRight key) (step P.cmp P.τ fuel (.bisectRight key) w) := by
  simp only [step, bisectRight, bind_assoc_run, ReadPost, stepE, Op.key?]
  rw [bind_ok hr.root]
  refine (bisectLoop_run key g .top g (w := w) (R := slotB {g.id} + R) (fuel := fuel) (by omega) (by simpa [Ctx.pos, Ctx.bun] using hr.I)
    (.refl g) hr.ord hr.odds (hr.occ.ne P.min_pos) (fun _ => Ctx.Fits.top key) ?_).bind ?_ ?_
  · intro tr ht
    by_cases hk : P.Valid key
    · refine .inl ?_
      rw [LLRB.Tree.bisectRight_spec P.law ht hk]
      exact ⟨_, _, rfl⟩
    · by_cases hn : tr = .nil
      · subst hn; exact .inl ⟨_, _, rfl⟩
      · obtain ⟨e, he, k, -, hek⟩ := LLRB.Tree.bisectRight_invalid P.law hk hn
        exact .inr ⟨hk, _, _, e, he, ⟨k.1, hek⟩, LLRB.Tree.toList_ne_nil hn⟩
  · rintro e w' ⟨h1, h2⟩
    refine ⟨h1.imp_right ?_, hr.failed h2⟩
    rintro ⟨h3, hrej, h4⟩
    refine ⟨?_, key, rfl, hrej⟩
    rw [LLRB.Tree.rejects_invalid P.law h3 (by by_cases h0 : H = 0; exact h4 h0; exact hr.occ.flat_ne P.min_pos h0)]
    rfl
  · rintro ⟨a1, a2⟩ w' ⟨C, i, st, l, tr, j, ht2, ht3, hF, ha, hfit, hv, h1⟩
    refine Res.ok rfl ⟨?_, hr.atLeaf h1⟩
    have hfl := h1.flat
    by_cases hk : P.Valid key
    · rw [LLRB.Tree.bisectRight_spec P.law ht2 hk, ht3, has_leafKv, below_leafKv, leafKv_length] at hF
      have hval := hfl ▸ hr.ord.flat.2
      rw [hr.rejects hk, hfl]
      simp only [Bool.false_eq_true, if_false, Spec.step, around_has P.law hk hval (hfit hk).lt (hfit hk).gt,
        around_below P.law hk hval (hfit hk).lt (hfit hk).gt, List.length_append]
      cases hh : has P.cmp key l with
      | true => simp [hh] at hF; simp [AgreesE]; exact ⟨by omega, hF.2⟩
      | false => simp [hh] at hF; simp [AgreesE]; exact ⟨by omega, hF.2⟩
    · obtain ⟨e1, e2⟩ := h1.invalid (hv.resolve_left hk)
      rw [e1]
      have hl : l = [] := by
        by_cases hl : l = []
        · exact hl
        · obtain ⟨e, he, -⟩ := LLRB.Tree.bisectRight_invalid P.law hk (t := tr) (by rintro rfl; exact hl (by simpa [leafKv] using ht3.symm))
          rw [he] at hF; simp at hF
      subst hl
      have : tr = .nil := by cases tr with | nil => rfl | node => simp [leafKv] at ht3
      subst this
      simp [LLRB.Tree.bisectRight] at hF
      rw [e2] at ha
      simp [rejects_nil, Spec.step, has, find, below, AgreesE]
      simp at ha
      exact ⟨by omega, hF.2⟩

/-! ### Plugging -/

/-- Ids of nodes above being worked on; none. -/
def Ctx.odds : {h : Nat} → Ctx K V H h → Multiset Id
  | _, .top => 0
  | _, .fr _ _ pre post up => ((Row.kidsH pre).map Gt.odds).sum + (post.map fun p => p.2.odds).sum + up.odds

theorem Ctx.plug_odds : ∀ {h : Nat} (C : Ctx K V H h) (t : Gt K V h), (C.plug t).odds = C.odds + t.odds
  | _, .top, t => by simp [Ctx.plug, Ctx.odds]
  | _, .fr id st pre post up, t => by
      rw [Ctx.plug, Ctx.plug_odds up, odds_inner, Ctx.odds]
      simp only [Row.kids_plug, List.map_append, List.map_cons, List.sum_append, List.sum_cons, List.map_map]
      rw [show (Gt.odds ∘ Prod.snd : K × Gt K V _ → _) = fun p => p.2.odds from rfl]
      abel

@[simp] theorem Ctx.dirty_odds : ∀ {h : Nat} (C : Ctx K V H h), C.dirty.odds = C.odds
  | _, .top => rfl
  | _, .fr id st pre post up => by simp [Ctx.dirty, Ctx.odds, Ctx.dirty_odds up]

/-- Occupancy of the subtree: the root's or that of other nodes. -/
def Ctx.SubOcc (min max : Nat) : {h : Nat} → Ctx K V H h → Pt K V h → Prop
  | _, .top, p => p.RootOcc min max
  | _, .fr _ _ _ _ _, p => p.Occ min max

theorem length_plug {α : Type} (pre : Hole K α) (t : α) (post : List (K × α)) :
    (Row.plug pre t post).cs.length = (Row.kidsH pre).length + post.length := by
  have := Row.length_kids (Row.plug pre t post)
  rw [Row.kids_plug] at this
  simp at this; omega

theorem Ctx.subOcc_inner {mn mx : Nat} (C : Ctx K V H (h + 1)) (r : Row K (Pt K V h)) :
    C.SubOcc mn mx (.inner r) ↔ (C.lo mn ≤ r.cs.length ∧ r.cs.length ≤ mx) ∧ ∀ c ∈ r.kids, c.Occ mn mx := by
  cases C <;> rfl

theorem Ctx.plug_occ {mn mx : Nat} : ∀ {h : Nat} (C : Ctx K V H h) (t : Gt K V h),
    (C.plug t).erase.RootOcc mn mx ↔ C.Occ mn mx ∧ C.SubOcc mn mx t.erase
  | _, .top, t => by simp [Ctx.plug, Ctx.Occ, Ctx.SubOcc]
  | _, .fr id st pre post up, t => by
      have hl := length_plug pre t post
      rw [Ctx.plug, Ctx.plug_occ up, erase_inner, Ctx.subOcc_inner]
      simp only [Ctx.Occ, Ctx.SubOcc, Row.kids_map, Row.map_cs, List.length_map, hl, Row.kids_plug,
        List.mem_map, List.mem_append, List.mem_cons]
      constructor
      · rintro ⟨h0, h1, h2⟩
        exact ⟨⟨fun c hc => h2 _ ⟨c, hc.imp_right .inr, rfl⟩, h1, h0⟩, h2 _ ⟨t, .inr (.inl rfl), rfl⟩⟩
      · rintro ⟨⟨h1, h2, h0⟩, h3⟩
        refine ⟨h0, h2, ?_⟩
        rintro _ ⟨c, hc | rfl | hc, rfl⟩
        · exact h1 c (.inl hc)
        · exact h3
        · exact h1 c (.inr hc)

@[simp] theorem Ctx.dirty_lo {mn : Nat} (C : Ctx K V H h) : C.dirty.lo mn = C.lo mn := by cases C <;> rfl

theorem Ctx.dirty_occ {mn mx : Nat} : ∀ {h : Nat} {C : Ctx K V H h}, C.Occ mn mx → C.dirty.Occ mn mx
  | _, .top, _ => trivial
  | _, .fr _ _ _ _ up, ho => ⟨ho.1, by rw [Ctx.dirty_lo]; exact ho.2.1, Ctx.dirty_occ ho.2.2⟩

theorem Ctx.plug_dirty_erase : ∀ {h : Nat} (C : Ctx K V H h) {t t' : Gt K V h}, t'.erase = t.erase → (C.dirty.plug t').erase = (C.plug t).erase
  | _, .top, _, _, e => e
  | _, .fr _ _ pre post up, t, t', e => Ctx.plug_dirty_erase up (by simp [e])

@[simp] theorem Ctx.dirty_subOcc {mn mx : Nat} (C : Ctx K V H h) (p : Pt K V h) : C.dirty.SubOcc mn mx p ↔ C.SubOcc mn mx p := by
  cases C <;> rfl

/-- The id of the root. -/
def Ctx.rid : {h : Nat} → Ctx K V H h → Id → Id
  | _, .top, i => i
  | _, .fr id _ _ _ up, _ => up.rid id

@[simp] theorem Ctx.plug_id : ∀ {h : Nat} (C : Ctx K V H h) (t : Gt K V h), (C.plug t).id = C.rid t.id
  | _, .top, _ => rfl
  | _, .fr _ _ _ _ up, _ => by rw [Ctx.plug, Ctx.plug_id up]; rfl

@[simp] theorem Ctx.dirty_rid : ∀ {h : Nat} (C : Ctx K V H h) (i : Id), C.dirty.rid i = C.rid i
  | _, .top, _ => rfl
  | _, .fr _ _ _ _ up, _ => Ctx.dirty_rid up _

/-- Keys of items and keys of non-leaves. -/
def kk : (K × V) ⊕ K → K ⊕ K := Sum.map Prod.fst _root_.id

def BeforeK (C : Cmp K) : K ⊕ K → K ⊕ K → Prop
  | .inr k, .inl p => ltb C.cmp p k = false
  | .inr a, .inr b | .inl a, .inr b | .inl a, .inl b => ltb C.cmp a b = true

theorem before_kk {C : Cmp K} (a b : (K × V) ⊕ K) : Before C a b ↔ BeforeK C (kk a) (kk b) := by
  cases a <;> cases b <;> rfl

theorem ord_congr {C : Cmp K} {s s' : List ((K × V) ⊕ K)} (h : s.map kk = s'.map kk) (ho : Ord C s) : Ord C s' := by
  constructor
  · have h1 := ho.1
    have e : Before C (V := V) = fun a b => BeforeK C (kk a) (kk b) := by funext a b; exact propext (before_kk a b)
    rw [e] at h1 ⊢
    rw [← List.pairwise_map (f := kk)] at h1 ⊢
    rwa [← h]
  · intro x hx
    have : kk x ∈ s.map kk := h ▸ List.mem_map_of_mem hx
    obtain ⟨y, hy, e⟩ := List.mem_map.1 this
    have := ho.2 y hy
    cases x <;> cases y <;> simp [kk] at e <;> simpa [skey, ← e] using this

/-! ### Patches -/

theorem Ctx.dirty_fr {h : Nat} {i : Id} {st : Option Ref} {pre : Hole K (Gt K V h)} {post : List (K × Gt K V h)} {up : Ctx K V H (h + 1)} :
    (Ctx.fr i st pre post up).dirty = Ctx.fr i st pre post up ↔ st = none ∧ up.dirty = up := by
  simp [Ctx.dirty, eq_comm]

/-- Under a dirty path the root is dirty. -/
theorem Ctx.plug_st : ∀ {h : Nat} {g : Gt K V h} (C : Ctx K V H h), C.dirty = C → g.st = none → (C.plug g).st = none
  | _, _, .top, _, hg => hg
  | _, g, .fr i st pre post up, hC, _ => by
      obtain ⟨rfl, hC'⟩ := Ctx.dirty_fr.1 hC
      exact Ctx.plug_st up hC' rfl

/-- The most nodes an operation makes dirty in a tree with `n` levels below its root. -/
def opDue (n : Nat) : Op K V → Nat
  | .put _ _ => 2 * n + 3
  | .patchByKey _ _ | .patchByIndex _ _ => n + 1
  | .deleteByKey _ | .deleteByIndex _ => n + 1 + min n 1
  | _ => 0

/-- The items afterwards are those given: nothing has happened, or the tree is a dirty one with these items, with `d` more nodes dirty at most. -/
def Now (P : Par K) (w0 : World K V) (T : Tot K V) (R : B K V) (g : Gt K V H) (d : Nat) (s : List (K × V)) (w : World K V) : Prop :=
  (s = g.erase.flat ∧ Same P w0 T R g w) ∨ ∃ (H' : Nat) (g' : Gt K V H'), H' ≤ H + 1 ∧ g'.erase.flat = s ∧ (g'.st = none ∧ g'.due ≤ g.due + d) ∧ Rest P w0 T R g' w

theorem Same.now {d : Nat} (h : Same P w0 T R g w) : Now P w0 T R g d g.erase.flat w := .inl ⟨rfl, h⟩

/-- How a call ends that changes the items. Unless it is PatchByKey, it leaves everything as it was if it does not answer `true`. -/
def WritePost (P : Par K) (w0 : World K V) (T : Tot K V) (R : B K V) (g : Gt K V H) (op : Op K V)
    (r : Out (Ans K V × Option Err) × World K V) : Prop :=
  Res r
    (fun a w' => AgreesE P.cmp op a (stepE P.cmp g.erase.flat op).1 ∧ Now P w0 T R g (opDue H op) (stepE P.cmp g.erase.flat op).2 w' ∧
      ((∀ k x, op ≠ .patchByKey k x) → a.1 ≠ .done true → Same P w0 T R g w'))
    (fun e w' => (Faulty w0 e ∨ ((stepE P.cmp g.erase.flat op).1 = none ∧ Refused P.cmp op e)) ∧ Same P w0 T R g w')

theorem leaf_due {C : Ctx K V H 0} {i : Id} {st : Option Ref} {l l' : List (K × V)} (hs : Sim P g (C.plug (.leaf i st l))) (hz : g.odds = 0) :
    (C.dirty.plug (.leaf i none l')).due ≤ g.due + (H + 1) := by
  have := hs.due hz
  have := C.dirty_due
  rw [Ctx.plug_due, due_leaf] at *
  simp only [Option.isNone_none, if_true]
  omega

/-- A leaf is marked dirty and the values of its items replaced. -/
theorem Rest.patch (hr : Rest P w0 T R g w) {C : Ctx K V H 0} {i : Id} {st : Option Ref} {l : List (K × V)} {w1 : World K V} {fuel : Nat}
    (hf : H < fuel) (ha : AtLeaf P w0 T (some g.id) (slotB {g.id} + R) g C i st l w1) :
    ∃ w2, touchLoadedNodeToRoot P.τ fuel i w1 = (.ok (), w2) ∧ KvIs P.toCmp (w2.node i).kv (leafKv l) ∧
      ∀ t l', KvIs P.toCmp (some t) (leafKv l') → l'.map Prod.fst = l.map Prod.fst →
        ∃ w3, setKv i t w2 = (.ok (), w3) ∧ ∃ g' : Gt K V H, g'.erase = (C.plug (.leaf i st l')).erase ∧ (g'.st = none ∧ g'.due ≤ g.due + (H + 1)) ∧ Rest P w0 T R g' w3 := by
  obtain ⟨hs, hI⟩ := ha
  obtain ⟨w2, e2, h2⟩ := touchUp_run C (c := mkCell P C.pos i st (.leaf l.length l)) (st := st) (b := st.isNone)
    (e := mkDisk P C.pos.root l.length (.leaf l)) (fuel := fuel) (n := l.length) (s := st) (by omega) rfl rfl rfl
    (hI.eq (by rw [bun_leaf]; rfl))
  refine ⟨w2, e2, ?_, ?_⟩
  · have := (h2.eq (by rw [add_assoc])).cell.body
    exact this.2.2.2
  · intro t l' ht hl
    have hlen : l'.length = l.length := by simpa using congrArg List.length hl
    obtain ⟨left, h3⟩ := (h2.eq (by rw [add_assoc])).openLeaf (items := l.length) (l := l) rfl
    have h4 := h3.setKv (l' := leafKv l') (t := t) (ld := true) (items := l.length) (leaf := true) (left := left) (l := leafKv l) rfl ht
    have h5 := h4.closeLeaf (items := l.length) (l := l') (left := left) rfl
    have hid : C.rid i = g.id := by rw [← hs.id, Ctx.plug_id]; rfl
    have hz := hr.odds
    have hc := hr.occ
    have ho := hr.ord
    rw [← hs.odds, Ctx.plug_odds, odds_leaf, add_zero] at hz
    rw [← hs.erase, Ctx.plug_occ] at hc
    rw [← hs.erase, Ctx.plug_seq] at ho
    refine ⟨_, rfl, C.dirty.plug (.leaf i none l'), C.plug_dirty_erase rfl, ⟨Ctx.plug_st _ (Ctx.dirty_dirty _) rfl, ?_⟩, ⟨?_, ?_, ?_, ?_, ?_⟩⟩
    · exact leaf_due hs hr.odds
    · rw [Ctx.plug_id, Ctx.dirty_rid, id_leaf, hid, bun_plug, bun_leaf, leafB, hlen, Ctx.dirty_pos]
      refine h5.eq ?_
      simp only [Option.isNone_none, ownPage_none, Gt.kid, id_leaf, cnt_leaf, st_leaf, hlen, mkCell, refOf,
          Option.getD_none, add_zero]
      abel
    · rw [Ctx.plug_clean]
      exact ⟨Ctx.dirty_clean ((Ctx.plug_clean _ _).1 (hs.clean hr.clean)).1 _, by simp⟩
    · rw [Ctx.plug_odds, Ctx.dirty_odds, hz]; rfl
    · rw [Ctx.plug_occ, Ctx.dirty_subOcc]
      refine ⟨Ctx.dirty_occ hc.1, ?_⟩
      have := hc.2
      cases C with
      | top => rw [Ctx.SubOcc, erase_leaf, rootOcc_leaf] at this ⊢; omega
      | fr => rw [Ctx.SubOcc, erase_leaf, occ_leaf] at this ⊢; omega
    · rw [Ctx.plug_seq]
      refine ord_congr ?_ ho
      simp only [Ctx.dirty_lseq, Ctx.dirty_rseq, erase_leaf, seq_leaf, List.map_append, List.map_map]
      congr 2
      have : ∀ l : List (K × V), l.map (kk ∘ Sum.inl) = (l.map Prod.fst).map Sum.inl := by
        intro l; rw [List.map_map]; rfl
      rw [this, this, hl]

theorem ReadPost.write {op : Op K V} {r : Out (Ans K V × Option Err) × World K V} (h : ReadPost P w0 T R g op r)
    (hs : (stepE P.cmp g.erase.flat op).2 = g.erase.flat) : WritePost P w0 T R g op r :=
  h.mono (fun _ _ h => ⟨h.1, by rw [hs]; exact h.2.now, fun _ _ => h.2⟩) (fun _ _ h => ⟨h.1, h.2⟩)

theorem map_fst_setKey (cmp : Compare K) (k : K) (v : V) (l : List (K × V)) : (Spec.setKey cmp k v l).map Prod.fst = l.map Prod.fst :=
  LLRB.Tree.map_fst_setKey _

theorem map_fst_setIndex (i : Int) (v : V) (l : List (K × V)) : (Spec.setIndex i v l).map Prod.fst = l.map Prod.fst :=
  LLRB.Tree.map_fst_setIndex _

theorem setKey_absent {cmp : Compare K} {k : K} {v : V} {l : List (K × V)} (h : has cmp k l = false) : Spec.setKey cmp k v l = l := by
  simp only [has, find, Option.isSome_eq_false_iff, Option.isNone_iff_eq_none, List.find?_eq_none] at h
  conv => rhs; rw [← List.map_id l]
  refine List.map_congr_left fun p hp => ?_
  simp [h p hp]

theorem around_setIndex {A l Z : List (K × V)} {i : Int} {k k' : Nat} (h : i = k) (e : k = A.length + k') (hk : k' < l.length) (v : V) :
    Spec.setIndex i v (A ++ l ++ Z) = A ++ Spec.setIndex (k' : Int) v l ++ Z := by
  subst h
  simp only [Spec.setIndex, Int.toNat_natCast]
  rw [List.append_assoc, LLRB.Tree.modify_append', if_neg (by omega), LLRB.Tree.modify_append', if_pos (by omega), List.append_assoc]
  congr 3; omega

theorem patchByKey_run (hr : Rest P w0 T R g w) {fuel : Nat} (hf : H < fuel) (key : K) (value : V) :
    WritePost P w0 T R g (.patchByKey key value) (step P.cmp P.τ fuel (.patchByKey key value) w) := by
  simp only [step, patchByKey, bind_assoc_run, WritePost, stepE, Op.key?]
  rw [bind_ok hr.root]
  refine (hr.byKey false key hf).bind ?_ ?_
  · rintro e w' ⟨h1, h2⟩
    exact ⟨h1.imp_right (fun h => ⟨by simp [h.1], key, rfl, h.2⟩), h2⟩
  · rintro a w' ⟨C, i, st, l, rfl, hfit, hv, h1⟩
    have hfl := h1.flat
    have hs' := h1.1.erase
    obtain ⟨w2, e2, ⟨tr, ht1, ht2, ht3⟩, h3⟩ := hr.patch hf h1
    dsimp only
    rw [bind_ok e2, bind_ok (kvOf_run ht1)]
    by_cases hk : P.Valid key
    · obtain ⟨t', p1, p2, p3⟩ := LLRB.Tree.patchByKey_ok P.law ht2 (value := Val.item value) hk
      rw [ht3, setKey_leafKv] at p3
      obtain ⟨w3, e3, g', p4, p6, p5⟩ := h3 t' _ ⟨t', rfl, p2, p3⟩ (map_fst_setKey _ _ _ _)
      rw [p1]
      dsimp only
      rw [bind_ok e3]
      have hval := hfl ▸ hr.ord.flat.2
      rw [hr.rejects hk, hfl]
      refine Res.ok rfl ⟨?_, .inr ⟨H, g', by omega, ?_, p6, p5⟩, fun h => absurd rfl (h _ _)⟩
      · simp only [Bool.false_eq_true, if_false, Spec.step, around_has P.law hk hval (hfit hk).lt (hfit hk).gt, ht3, has_leafKv, AgreesE]
        cases has P.cmp key l <;> rfl
      · rw [p4, Ctx.plug_flat]
        simp only [Bool.false_eq_true, if_false, Spec.step, around_has P.law hk hval (hfit hk).lt (hfit hk).gt,
          around_setKey P.law hk hval (hfit hk).lt (hfit hk).gt, erase_leaf, flat_leaf]
        cases hh : has P.cmp key l with
        | true => rfl
        | false => rw [setKey_absent hh]; rfl
    · obtain ⟨e1, -⟩ := h1.invalid (hv.resolve_left hk)
      rw [e1]
      by_cases hl : l = []
      · subst hl
        have : tr = .nil := by cases tr with | nil => rfl | node => simp [leafKv] at ht3
        subst this
        obtain ⟨w3, e3, g', p4, p6, p5⟩ := h3 .nil [] ⟨.nil, rfl, ht2, rfl⟩ rfl
        rw [LLRB.Tree.patchByKey]
        dsimp only
        rw [bind_ok e3]
        refine Res.ok rfl ⟨by simp [AgreesE, Spec.step, rejects_nil, find, has], .inr ⟨H, g', by omega, ?_, p6, p5⟩, fun h => absurd rfl (h _ _)⟩
        rw [p4, hs', e1]; simp [Spec.step, rejects_nil, find, has]
      · obtain ⟨e, he, kx, -, hkx⟩ := LLRB.Tree.patchByKey_invalid P.law hk (value := Val.item value) (t := tr) (by rintro rfl; exact hl (by simpa [leafKv] using ht3.symm))
        rw [he]
        obtain ⟨w3, e3, g', p4, p6, p5⟩ := h3 tr l ⟨tr, rfl, ht2, ht3⟩ rfl
        dsimp only
        rw [bind_ok e3]
        rw [LLRB.Tree.rejects_invalid P.law hk hl]
        refine Res.ok rfl ⟨⟨key, rfl, kx.1, hkx⟩, .inr ⟨H, g', by omega, ?_, p6, p5⟩, fun h => absurd rfl (h _ _)⟩
        rw [p4, hs', e1]; rfl

theorem patchByIndex_run (hr : Rest P w0 T R g w) {fuel : Nat} (hf : H + P.max < fuel) (i : Int) (value : V) :
    WritePost P w0 T R g (.patchByIndex i value) (step P.cmp P.τ fuel (.patchByIndex i value) w) := by
  simp only [step, patchByIndex, bind_assoc_run, WritePost, stepE, Op.key?]
  rw [bind_ok (hr.outOfRange i)]
  cases hi : (at? i g.erase.flat).isSome with
  | false =>
    rw [Bool.not_false, if_pos rfl]
    have := Option.isNone_iff_eq_none.1 (Option.isSome_eq_false_iff.1 hi)
    exact Res.ok rfl ⟨by simp [AgreesE, Spec.step, this], .inl ⟨by simp [Spec.step, this], g, .refl g, hr⟩, fun _ _ => ⟨g, .refl g, hr⟩⟩
  | true =>
    rw [Bool.not_true, if_neg (by simp), bind_assoc_run, bind_ok hr.root]
    obtain ⟨k, hk1, hk2, hk3⟩ := at_nat hi
    rw [hk2, bind_assoc_run]
    refine (hr.byIndex true hk3 hf).bind ?_ ?_
    · rintro e w' ⟨h1, h2⟩
      exact ⟨.inl h1, h2⟩
    · rintro a w' ⟨C, i', st, l, k', rfl, e1, hk', h1⟩
      have hfl := h1.flat
      obtain ⟨w2, e2, ⟨tr, ht1, ht2, ht3⟩, h3⟩ := hr.patch (fuel := fuel) (by omega) h1
      dsimp only
      rw [bind_assoc_run, bind_ok e2, bind_assoc_run, bind_ok (kvOf_run ht1)]
      obtain ⟨t', p1, p2, p3, -⟩ := LLRB.Tree.patchByIndex_ok ht2 (k' : Int) (Val.item value)
      have hat2 : (at? (k' : Int) (leafKv l)).isSome = true := by rw [at_leafKv, at?_nat]; simp [hk']
      rw [ht3, if_pos hat2, setIndex_leafKv] at p3
      obtain ⟨w3, e3, g', p4, p6, p5⟩ := h3 t' _ ⟨t', rfl, p2, p3⟩ (map_fst_setIndex _ _ _)
      rw [p1]
      dsimp only
      rw [bind_assoc_run, bind_ok e3]
      refine Res.ok rfl ⟨by simp [AgreesE, Spec.step, hi], .inr ⟨H, g', by omega, ?_, p6, p5⟩, fun _ h => absurd rfl h⟩
      rw [p4, Ctx.plug_flat, erase_leaf, flat_leaf]
      simp only [Spec.step, hi, if_true]
      rw [hfl, around_setIndex hk1 e1 hk']

end

end SM.BT

import Verif.BTree.Flush

/-! FetchDimensionsReport, FetchLayoutReport, TouchItem. -/

namespace SM.BT

open Spec (at? below above find has rejects Agrees AgreesE Refused stepE Op Ans)

variable {K V : Type}

section
variable {P : Par K} {w0 : World K V} {T : Tot K V} {w : World K V} {ρ : Option Id}
  {R R' : B K V} {c c' : Cell K V} {h H : Nat}

/-! ### Dimensions -/

theorem Ctx.root_top : ∀ {h : Nat} (C : Ctx K V H h) (t : Gt K V h), C.pos.root = true → h = H ∧ (C.plug t).cnt = t.cnt
  | _, .top, _, _ => ⟨rfl, rfl⟩
  | _, .fr .., _, h => by simp [Ctx.pos, Pos.child] at h

theorem dimLoop_run (g : Gt K V H) : ∀ {h : Nat} (C : Ctx K V H h) (t : Gt K V h) {w : World K V} {fuel : Nat} {d : Dimensions},
    h < fuel → I P w0 T w ρ (bun P C.pos t + (C.bun P t.kid + R)) → Sim P g (C.plug t) →
    Ord P.toCmp (C.plug t).erase.seq → t.odds = 0 → (C.pos.root = false → d = ⟨P.min, P.max, g.cnt, H - h + 1⟩) →
    Res (dimLoop P.cmp P.τ fuel t.id d w)
      (fun a w' => a = ⟨P.min, P.max, g.cnt, H + 1⟩ ∧ Failed P w0 T ρ R g w')
      (fun e w' => Faulty w0 e ∧ Failed P w0 T ρ R g w') := by
  intro h
  induction h with
  | zero =>
    intro C t w fuel d hf hI hs ho hz hd
    obtain ⟨fuel, rfl⟩ : ∃ f, fuel = f + 1 := ⟨fuel - 1, by omega⟩
    simp only [dimLoop]
    refine (visit_run true hI hz (ord_plug ho)).bind ?_ ?_
    · rintro e w1 ⟨h1, h2⟩
      exact ⟨h1, .of hs h2⟩
    · rintro _ w1 ⟨t', g1, g2, h1⟩
      rw [← g2.odds] at hz
      have hs' := hs.trans (C.sim g2)
      rcases t'.cases0 with ⟨i, d, rfl⟩ | ⟨i, st, l, rfl⟩ | ⟨i, o, l, rfl⟩
      rotate_right
      · simp at hz
      · simp at g1
      · rw [← g2.kid] at h1
        rw [← g2.id]
        have hl := h1.isLeaf
        simp only [getN_bind, getT_bind, id_leaf, hl.leaf, hl.root, hl.items, if_true, h1.min, h1.max]
        refine Res.ok rfl ⟨?_, .of hs' h1⟩
        cases hr : C.pos.root with
        | false => simp [hd hr]
        | true =>
          obtain ⟨e1, e2⟩ := C.root_top (.leaf i st l) hr
          rw [hs'.cnt] at e2
          simp [e2, ← e1]
  | succ h ih =>
    intro C t w fuel d hf hI hs ho hz hd
    obtain ⟨fuel, rfl⟩ : ∃ f, fuel = f + 1 := ⟨fuel - 1, by omega⟩
    simp only [dimLoop]
    refine (visit_run true hI hz (ord_plug ho)).bind ?_ ?_
    · rintro e w1 ⟨h1, h2⟩
      exact ⟨h1, .of hs h2⟩
    · rintro _ w1 ⟨t', g1, g2, h1⟩
      rw [← g2.odds] at hz
      have hs' := hs.trans (C.sim g2)
      rcases t'.casesS with ⟨i, d', rfl⟩ | ⟨i, st, r, rfl⟩ | ⟨i, o, r, rfl⟩
      rotate_right
      · simp [odds_odInner] at hz
      · simp at g1
      · rw [← g2.kid] at h1
        rw [← g2.id]
        have hin := h1.isInner
        have hle := C.le
        have ho' : Ord P.toCmp (C.plug (.inner i st r)).erase.seq := by rw [(C.sim (P := P) g2).erase]; exact ho
        simp only [getN_bind, getT_bind, id_inner, hin.leaf, hin.left, hin.root, hin.items, Bool.false_eq_true, if_false, h1.min, h1.max,
          deref_some_bind]
        obtain ⟨c0, cs⟩ := r
        refine ih (C := .fr i st none cs C) (t := c0) (w := w1) (fuel := fuel) (by omega)
            (h1.eq (by rw [← add_assoc, ← add_assoc]; exact congrArg (· + R) (ctx_down C i st none c0 cs))) hs' ho' (odds_kid hz (by simp [Row.kids])) ?_
        intro _
        cases hr : C.pos.root with
        | false => simp only [hd hr]; simp; omega
        | true =>
          obtain ⟨e1, e2⟩ := C.root_top (.inner i st ⟨c0, cs⟩) hr
          rw [hs'.cnt, cnt_inner] at e2
          simp [e2, ← e1]

variable {g : Gt K V H}

theorem fetchDimensionsReport_run (hr : Rest P w0 T R g w) {fuel : Nat} (hf : H < fuel) :
    Res (fetchDimensionsReport P.cmp P.τ fuel w)
      (fun a w' => a = ⟨P.min, P.max, g.erase.flat.length, H + 1⟩ ∧ Same P w0 T R g w')
      (fun e w' => Faulty w0 e ∧ Same P w0 T R g w') := by
  unfold fetchDimensionsReport
  rw [bind_ok hr.root]
  refine (dimLoop_run g .top g (w := w) (R := slotB {g.id} + R) hf (by simpa [Ctx.pos, Ctx.bun] using hr.I) (.refl g) hr.ord
    hr.odds (by simp [Ctx.pos])).mono ?_ ?_
  · rintro a w' ⟨rfl, h⟩
    exact ⟨rfl, hr.failed h⟩
  · rintro e w' ⟨h1, h2⟩
    exact ⟨h1, hr.failed h2⟩

/-! ### The layout report -/

/-- The layout of a collection of stored nodes: the bytes of each object. -/
def layoutOf (S : Multiset Ref) : Layout := fun n =>
  if n = 0 ∨ (S.filter fun r => r.num = n) = 0 then none else some ((S.filter fun r => r.num = n).map Ref.len).sum

theorem layoutOf_cons_ne {r : Ref} {S : Multiset Ref} {n : Nat} (h : r.num ≠ n) : layoutOf (r ::ₘ S) n = layoutOf S n := by
  unfold layoutOf
  rw [Multiset.filter_cons_of_neg S (p := fun r : Ref => r.num = n) (a := r) h]

theorem layoutAdd_layoutOf (r : Ref) (S : Multiset Ref) : layoutAdd r (layoutOf S) = layoutOf (r ::ₘ S) := by
  funext n
  unfold layoutAdd
  by_cases hr : r.num = 0
  · rw [if_neg (by simp [hr])]
    by_cases hn : n = 0
    · simp [layoutOf, hn]
    · exact (layoutOf_cons_ne (by omega)).symm
  · rw [if_pos hr]
    by_cases hn : n = r.num
    · subst hn
      rw [upd_same]
      simp only [layoutOf, hr, false_or]
      by_cases he : (S.filter fun x => x.num = r.num) = 0
      · simp [he]
      · simp [he, Nat.add_comm]
    · have : r.num ≠ n := fun h => hn h.symm
      rw [layoutOf_cons_ne this, upd, if_neg hn]

theorem layoutAdd_own (st : Option Ref) (e : DiskNode K V) (S : Multiset Ref) :
    layoutAdd (refOf st) (layoutOf S) = layoutOf (S + (ownPage st e).2.2.1.map Prod.fst) := by
  cases st with
  | none => simp [refOf, layoutAdd, Ref.zero]
  | some r =>
    rw [refOf, Option.getD_some, layoutAdd_layoutOf]
    congr 1
    rw [add_comm]; rfl

/-- The report of one child; it leaves in memory what was there. -/
def Lays (P : Par K) (w0 : World K V) (T : Tot K V) (ρ : Option Id) (fuel : Nat) (q : Pos) (t : Gt K V h) : Prop :=
  ∀ (S : Multiset Ref) (R : B K V) (w : World K V), I P w0 T w ρ (bun P q t + R) →
    Res (updateLayoutReport P.cmp P.τ fuel t.id (layoutOf S) w)
      (fun a w' => a = layoutOf (S + (bun P q t).2.2.1.map Prod.fst) ∧ ∃ g, (Sim P t g ∧ g.mem = t.mem) ∧ I P w0 T w' ρ (bun P q g + R))
      (fun e w' => Faulty w0 e ∧ ∃ g, Sim P t g ∧ I P w0 T w' ρ (bun P q g + R))

theorem layoutLoop_run {i : Id} {q : Pos} {st : Option Ref} {κ : Row K Kid} {fuel : Nat} :
    ∀ (post done : List (Gt K V h)) (n k : Nat) {w : World K V} {S : Multiset Ref}, (done ++ post).map Gt.kid = κ.kids → done.length = n + 1 → post.length = k →
      (∀ t ∈ post, Lays P w0 T ρ fuel (.child i) t) → I P w0 T w ρ (innerB P q i st κ + (kidsB P i (done ++ post) + R)) →
      Res (layoutLoop P.cmp P.τ fuel i n k (layoutOf S) w)
        (fun a w' => a = layoutOf (S + (kidsB P i post).2.2.1.map Prod.fst) ∧ ∃ post', (List.Forall₂ (Sim P) post post' ∧ post'.map Gt.mem = post.map Gt.mem) ∧
          I P w0 T w' ρ (innerB P q i st κ + (kidsB P i (done ++ post') + R)))
        (fun e w' => Faulty w0 e ∧ ∃ post', List.Forall₂ (Sim P) post post' ∧
          I P w0 T w' ρ (innerB P q i st κ + (kidsB P i (done ++ post') + R)))
  | [], done, n, k, w, S, _, _, hk, _, hI => by
      simp only [List.length_nil] at hk
      subst hk
      rw [layoutLoop]
      exact Res.ok rfl ⟨by simp, [], ⟨.nil, rfl⟩, hI⟩
  | t :: post, done, n, k, w, S, hκ, hd, hk, hc, hI => by
      simp only [List.length_cons] at hk
      subst hk
      have hh : HasKids P (w.node i) κ := by
        have := hI
        rw [innerB, add_assoc, add_assoc] at this
        exact this.cell.hasKids
      have hn : κ.kids[n + 1]? = some t.kid := by rw [← hκ, ← hd]; simp
      have hn2 : ∃ k, κ.cs[n]? = some (k, t.kid) := by
        simp only [Row.kids, List.getElem?_cons_succ, List.getElem?_map, Option.map_eq_some_iff] at hn
        obtain ⟨⟨k, x⟩, h1, h2⟩ := hn
        exact ⟨k, by rw [h1]; simp at h2; rw [h2]⟩
      obtain ⟨k, hn2⟩ := hn2
      have e1 := kvChildOk_run hh.kv (n := n) (k := k) (c := t.id) (by simp [hn2, Gt.kid]) 3097
      rw [layoutLoop, bind_ok e1]
      have hI1 := hI.eq (R' := bun P (Pos.child i) t + (innerB P q i st κ + (kidsB P i (done ++ post) + R))) (by
        simp only [kidsB_append, kidsB_cons]; abel)
      have hsp : ∀ (g : Gt K V h) (post' : List (Gt K V h)), innerB P q i st κ + (kidsB P i (done ++ g :: post') + R) =
          bun P (Pos.child i) g + (innerB P q i st κ + (kidsB P i (done ++ post') + R)) := by
        intro g post'
        simp only [kidsB_append, kidsB_cons]; abel
      refine (hc t (by simp) S _ w hI1).bind ?_ ?_
      · rintro e w' ⟨h1, g, h2, h3⟩
        exact ⟨h1, g :: post, .cons h2 (forall₂_sim_refl _), by rw [hsp]; exact h3⟩
      · rintro a w' ⟨rfl, g, ⟨h2, hm⟩, h3⟩
        rw [← hsp] at h3
        refine (layoutLoop_run post (done ++ [g]) (n + 1) post.length (w := w') ?_ (by simp [hd]) rfl
          (fun t ht => hc t (by simp [ht])) (by simpa using h3)).mono ?_ ?_
        · rw [← hκ]; simp [h2.kid]
        · rintro b w'' ⟨rfl, post', ⟨h5, hm'⟩, h6⟩
          refine ⟨?_, g :: post', ⟨.cons h2 h5, by rw [List.map_cons, List.map_cons, hm, hm']⟩, by simpa using h6⟩
          simp only [kidsB_cons, Prod.snd_add, Prod.fst_add, Multiset.map_add, add_assoc]
        · rintro e w'' ⟨h4, post', h5, h6⟩
          exact ⟨h4, g :: post', .cons h2 h5, by simpa using h6⟩

theorem unl_st {t : Gt K V h} (hl : t.ld = false) : t.st.isSome = true := by
  cases h with
  | zero =>
    rcases t.cases0 with ⟨i, d, rfl⟩ | ⟨i, st, l, rfl⟩ | ⟨i, o, l, rfl⟩
    · rfl
    · simp at hl
    · simp at hl
  | succ h =>
    rcases t.casesS with ⟨i, d, rfl⟩ | ⟨i, st, r, rfl⟩ | ⟨i, o, l, rfl⟩
    · rfl
    · simp at hl
    · simp at hl

theorem updateLayoutReport_run : ∀ {h : Nat} {q : Pos} (t : Gt K V h) {fuel : Nat}, h < fuel →
    t.odds = 0 → t.Clean → Ord P.toCmp t.erase.seq → Lays P w0 T ρ fuel q t
  | h, q, t, 0, hf, _, _, _ => by omega
  | h, q, t, fuel + 1, hf, hz, hcl, ho => by
      intro S R w hI
      have hen : Res ((if !(w.node t.id).loaded then loadNode P.cmp P.τ t.id else pure ()) w)
          (fun _ w' => ∃ g : Gt K V h, g.ld = true ∧ Sim P t g ∧ (t.ld = true → g.mem = t.mem) ∧ I P w0 T w' ρ (bun P q g + R))
          (fun e w' => Faulty w0 e ∧ I P w0 T w' ρ (bun P q t + R)) := by
        cases hl : t.ld with
        | true => rw [hI.loaded, hl]; exact Res.ok rfl ⟨t, hl, .refl t, fun _ => rfl, hI⟩
        | false => exact (ensure_run rfl hI ho).mono (fun _ _ ⟨g, h1, h2, h3⟩ => ⟨g, h1, h2, fun h => absurd h (by simp), h3⟩) fun _ _ h => h
      unfold updateLayoutReport
      rw [getN_bind]
      refine hen.bind (fun e w h => ⟨h.1, t, .refl t, h.2⟩) ?_
      rintro _ w1 hen1
      obtain ⟨g, gl, hs, hld, h1⟩ : ∃ g : Gt K V h, g.ld = true ∧ Sim P t g ∧ (t.ld = true → g.mem = t.mem) ∧ I P w0 T w1 ρ (bun P q g + R) := hen1
      have hz1 : g.odds = 0 := by rw [hs.odds]; exact hz
      have hpg := hs.pages q
      rw [← hs.erase] at ho
      have hcl1 := hs.clean hcl
      obtain ⟨-, -, -, href, -⟩ := h1.head hz1
      -- the purge at the end
      have hend : ∀ (m : Layout) (g' : Gt K V h) (w' : World K V), Sim P t g' → (t.ld = true → g'.mem = t.mem) → I P w0 T w' ρ (bun P q g' + R) →
          m = layoutOf (S + (bun P q t).2.2.1.map Prod.fst) →
          Res ((do (if !(w.node t.id).loaded then purgeNode P.τ true (fuel + 1) t.id else pure ()); return m : M K V Layout) w')
            (fun a w' => a = layoutOf (S + (bun P q t).2.2.1.map Prod.fst) ∧ ∃ g, (Sim P t g ∧ g.mem = t.mem) ∧ I P w0 T w' ρ (bun P q g + R))
            (fun e w' => Faulty w0 e ∧ ∃ g, Sim P t g ∧ I P w0 T w' ρ (bun P q g + R)) := by
        intro m g' w' hs' hld' hI' hm
        rw [hI.loaded]
        cases hl : t.ld with
        | true => exact Res.ok rfl ⟨hm, g', ⟨hs', hld' hl⟩, hI'⟩
        | false =>
          have := purgeNode_run true g' (fuel := fuel + 1) hf hI' (by rw [hs'.odds]; exact hz) (hs'.clean hcl)
          rw [hs'.id] at this
          refine this.bind ?_ ?_
          · rintro e w2 ⟨-, -, h3, -⟩
            have := unl_st hl
            rw [hs'.st] at h3
            simp [h3] at this
          · rintro _ w2 ⟨-, g2, a1, a3, -, a2⟩
            exact Res.ok rfl ⟨hm, g2, ⟨hs'.trans a1, by rw [mem_ofUnl hl, mem_ofUnl (a3 (by rw [hs'.st]; exact unl_st hl))]⟩, a2⟩
      rw [← hs.id, getN_bind, href]
      rw [← hs.id] at hend
      cases h with
      | zero =>
        rcases g.cases0 with ⟨i, d, rfl⟩ | ⟨i, st, l, rfl⟩ | ⟨i, o, l, rfl⟩
        · simp at gl
        · have hl := h1.isLeaf
          simp only [id_leaf, hl.leaf, Bool.not_true, Bool.false_eq_true, if_false, pure_bind_run, st_leaf] at hend ⊢
          refine hend _ _ _ hs hld h1 ?_
          rw [layoutAdd_own st (mkDisk P q.root l.length (.leaf l)), ← hpg, bun_leaf, leafB]
          simp [cellB, lruB]
        · simp at hz1
      | succ h =>
        rcases g.casesS with ⟨i, d, rfl⟩ | ⟨i, st, r, rfl⟩ | ⟨i, o, l, rfl⟩
        · simp at gl
        · have hin := h1.isInner
          simp only [id_inner, hin.leaf, Bool.not_false, if_true, st_inner, hin.left] at hend ⊢
          rw [erase_inner] at ho
          have hrec : ∀ c ∈ r.kids, Lays P w0 T ρ fuel (.child i) c := by
            intro c hc
            exact updateLayoutReport_run c (by omega) (odds_kid hz1 hc) (clean_st hcl1 c hc) (ho.kid (by rw [Row.kids_map]; exact List.mem_map_of_mem hc))
          have hkids : r.kids = r.c0 :: r.cs.map Prod.snd := rfl
          have h1' : I P w0 T w1 ρ (bun P (Pos.child i) r.c0 + (innerB P q i st (r.map Gt.kid) + (kidsB P i (r.cs.map Prod.snd) + R))) := by
            refine h1.eq ?_
            rw [bun_inner]
            show innerB P q i st (r.map Gt.kid) + kidsB P i r.kids + R = _
            rw [hkids, kidsB_cons]; abel
          have hfin : ∀ {w' : World K V} {L : List (Gt K V h)}, List.Forall₂ (Sim P) r.kids L →
              I P w0 T w' ρ (innerB P q i st (r.map Gt.kid) + (kidsB P i L + R)) →
              ∃ r', r'.map Gt.kid = r.map Gt.kid ∧ (Sim P (.inner i st r) (.inner i st r') ∧ r'.kids = L) ∧ I P w0 T w' ρ (bun P q (.inner i st r') + R) := by
            intro w' L hL hI'
            obtain ⟨r', a1, a2, a3⟩ := Sim.row (i := i) (st := st) hL
            refine ⟨r', a2, ⟨a3, a1⟩, ?_⟩
            rw [bun_inner, a1, a2, add_assoc]; exact hI'
          rw [layoutAdd_own st (mkDisk P q.root (r.map Gt.kid).total (r.map Gt.kid).disk), bind_assoc_run, must_some_bind, bind_assoc_run]
          refine (hrec r.c0 (by simp [hkids]) _ _ _ h1').bind ?_ ?_
          · rintro e w' ⟨b1, c', b2, b3⟩
            have b4 := b3.eq (R' := innerB P q i st (r.map Gt.kid) + (kidsB P i (c' :: r.cs.map Prod.snd) + R)) (by rw [kidsB_cons]; abel)
            obtain ⟨r', -, ⟨b5, -⟩, b6⟩ := hfin (L := c' :: r.cs.map Prod.snd) (.cons b2 (forall₂_sim_refl _)) b4
            exact ⟨b1, _, hs.trans b5, b6⟩
          · rintro a w2 ⟨rfl, c', ⟨b2, bm⟩, b3⟩
            have b4 := b3.eq (R' := innerB P q i st (r.map Gt.kid) + (kidsB P i ([c'] ++ r.cs.map Prod.snd) + R)) (by
              rw [List.singleton_append, kidsB_cons]; abel)
            obtain ⟨r2, b5, -, b6⟩ := hfin (L := [c'] ++ r.cs.map Prod.snd) (.cons b2 (forall₂_sim_refl _)) b4
            have hin2 := b6.isInner
            have elen : r2.cs.length = r.cs.length := by
              have := congrArg (fun r => r.cs.length) b5
              simpa using this
            rw [bind_assoc_run, bind_ok (kvLen_run hin2.kv)]
            simp only [innerKv_length, List.length_map, elen, Int.toNat_natCast]
            refine (layoutLoop_run (r.cs.map Prod.snd) [c'] 0 r.cs.length (w := w2) ?_ rfl (by simp)
              (fun t ht => hrec t (by rw [hkids]; exact List.mem_cons_of_mem _ ht)) b4).bind ?_ ?_
            · rw [Row.kids_map, hkids]; simp [b2.kid]
            · rintro e w' ⟨d1, post', d2, d3⟩
              obtain ⟨r', -, ⟨b5, -⟩, b6⟩ := hfin (L := [c'] ++ post') (.cons b2 d2) d3
              exact ⟨d1, _, hs.trans b5, b6⟩
            · rintro b w3 ⟨rfl, post', ⟨d2, dm⟩, d3⟩
              obtain ⟨r3, d4, ⟨d5, dk⟩, d6⟩ := hfin (L := [c'] ++ post') (.cons b2 d2) d3
              refine hend _ _ _ (hs.trans d5) (fun hl => ?_) d6 ?_
              · rw [← hld hl, mem_inner, mem_inner, dk, hkids, List.singleton_append, List.map_cons, List.map_cons, bm, dm]
              rw [← hpg, bun_inner]
              congr 1
              show _ = S + Multiset.map Prod.fst (innerB P q i st (r.map Gt.kid) + kidsB P i r.kids).2.2.1
              rw [hkids, kidsB_cons, innerB]
              simp only [Prod.snd_add, Prod.fst_add, Multiset.map_add, add_assoc, cellB_3, lruB_3, zero_add]
              rfl
        · simp [odds_odInner] at hz1

theorem fetchLayoutReport_run (hr : Rest P w0 T R g w) {fuel : Nat} (hf : H < fuel) :
    Res (fetchLayoutReport P.cmp P.τ fuel w)
      (fun a w' => a = layoutOf ((bun P ⟨none, true⟩ g).2.2.1.map Prod.fst) ∧ ∃ g', (Sim P g g' ∧ g'.mem = g.mem) ∧ Rest P w0 T R g' w')
      (fun e w' => Faulty w0 e ∧ Same P w0 T R g w') := by
  unfold fetchLayoutReport
  rw [bind_ok hr.root]
  have e0 : (fun _ => none : Layout) = layoutOf 0 := by funext n; simp [layoutOf]
  rw [e0]
  refine (updateLayoutReport_run g (q := ⟨none, true⟩) hf hr.odds hr.clean hr.ord 0 _ _ hr.I).mono ?_ ?_
  · rintro a w' ⟨rfl, g', h1, h2⟩
    exact ⟨by rw [zero_add], g', h1, hr.sim h1.1 h2⟩
  · rintro e w' ⟨h0, g', h1, h2⟩
    exact ⟨h0, g', h1, hr.sim h1 h2⟩

/-! ### TouchItem -/

theorem mem_kidsB {i : Id} {L : List (Gt K V h)} {p : Ref × DiskNode K V} :
    p ∈ (kidsB P i L).2.2.1 ↔ ∃ t ∈ L, p ∈ (bun P (.child i) t).2.2.1 := by
  induction L with
  | nil => simp
  | cons t L ih => rw [kidsB_cons]; simp [ih]

theorem mem_listSum {α β : Type} {L : List α} {f : α → Multiset β} {p : β} : p ∈ (L.map f).sum ↔ ∃ t ∈ L, p ∈ f t := by
  induction L with
  | nil => simp
  | cons t L ih => simp [ih]

/-- The items on a tree's leaf pages are items of the tree. -/
theorem Dt.pages_items : ∀ {h : Nat} (d : Dt K V h) {root : Bool} {p : Ref × DiskNode K V} {l : List (K × V)},
    p ∈ d.pages P root → p.2.body = .leaf l → ∀ x ∈ l, x ∈ d.erase.flat
  | 0, d, root, p, l, hp, hl => by
      obtain ⟨ref, l0, rfl⟩ := d.cases0
      rw [pages_leaf, Multiset.mem_singleton] at hp
      subst hp
      simp only [mkDisk, DiskBody.leaf.injEq] at hl
      subst hl
      intro x hx
      simpa using hx
  | h + 1, d, root, p, l, hp, hl => by
      obtain ⟨ref, r, rfl⟩ := d.casesS
      rw [pages_inner, Multiset.mem_cons] at hp
      rcases hp with rfl | hp
      · simp [mkDisk, Row.disk] at hl
      · obtain ⟨c, hc, hp⟩ := mem_listSum.1 hp
        intro x hx
        have := Dt.pages_items c hp hl x hx
        rw [erase_dinner, flat_inner, Row.kids_map, List.flatMap_map]
        exact List.mem_flatMap.2 ⟨c, hc, this⟩

theorem pages_items : ∀ {h : Nat} (t : Gt K V h) {q : Pos} {p : Ref × DiskNode K V} {l : List (K × V)}, t.odds = 0 →
    p ∈ (bun P q t).2.2.1 → p.2.body = .leaf l → ∀ x ∈ l, x ∈ t.erase.flat
  | 0, t, q, p, l, hz, hp, hl => by
      rcases t.cases0 with ⟨i, d, rfl⟩ | ⟨i, st, l0, rfl⟩ | ⟨i, o, l, rfl⟩
      · rw [bun_unl] at hp
        rw [erase_unl]
        exact Dt.pages_items d (by simpa [cellB, offB] using hp) hl
      · rw [bun_leaf, leafB] at hp
        cases st with
        | none => simp [cellB, lruB] at hp
        | some ref =>
          have : p = (ref, mkDisk P q.root l0.length (.leaf l0)) := by simpa [cellB, lruB, pageB] using hp
          subst this
          simp only [mkDisk, DiskBody.leaf.injEq] at hl
          subst hl
          intro x hx
          simpa using hx
      · simp at hz
  | h + 1, t, q, p, l, hz, hp, hl => by
      rcases t.casesS with ⟨i, d, rfl⟩ | ⟨i, st, r, rfl⟩ | ⟨i, o, r, rfl⟩
      · rw [bun_unl] at hp
        rw [erase_unl]
        exact Dt.pages_items d (by simpa [cellB, offB] using hp) hl
      · rw [bun_inner] at hp
        have hp' : p ∈ (innerB P q i st (r.map Gt.kid)).2.2.1 + (kidsB P i r.kids).2.2.1 := hp
        rcases Multiset.mem_add.1 hp' with hp | hp
        · exfalso
          rw [innerB] at hp
          cases st with
          | none => simp [cellB, lruB] at hp
          | some ref =>
            have : p = (ref, mkDisk P q.root (r.map Gt.kid).total (r.map Gt.kid).disk) := by simpa [cellB, lruB, pageB] using hp
            subst this
            simp [mkDisk, Row.disk] at hl
        · obtain ⟨c, hc, hp⟩ := mem_kidsB.1 hp
          intro x hx
          have := pages_items c (odds_kid hz hc) hp hl x hx
          rw [erase_inner, flat_inner, Row.kids_map, List.flatMap_map]
          exact List.mem_flatMap.2 ⟨c, hc, this⟩
      · simp [odds_odInner] at hz

theorem Ctx.dirty_pages_le : ∀ {h : Nat} (C : Ctx K V H h) (k k' : Kid), (C.dirty.bun P k).2.2.1 ≤ (C.bun P k').2.2.1
  | _, .top, k, k' => le_refl _
  | _, .fr i st pre post up, k, k' => by
      simp only [Ctx.dirty, Ctx.bun, innerB, Prod.snd_add, Prod.fst_add, ownPage_none, add_zero, cellB_3, lruB_3, zero_add]
      refine add_le_add (add_le_add ?_ (le_refl _)) (Ctx.dirty_pages_le up _ _)
      exact le_add_of_nonneg_left (Multiset.zero_le _)

theorem listSum_zero {α β : Type} {L : List α} {f : α → Multiset β} (h : (L.map f).sum = 0) {t : α} (ht : t ∈ L) : f t = 0 := by
  refine Multiset.eq_zero_of_forall_notMem fun p hp => ?_
  have := mem_listSum.2 ⟨t, ht, hp⟩
  simp [h] at this

theorem msum_zero {β : Type} {A B : Multiset β} (h : A + B = 0) : A = 0 ∧ B = 0 := by
  have := congrArg Multiset.card h
  rw [Multiset.card_add, Multiset.card_zero] at this
  constructor
  · rw [← Multiset.card_eq_zero]; omega
  · rw [← Multiset.card_eq_zero]; omega

theorem Ctx.dirty_pages_items : ∀ {h : Nat} (C : Ctx K V H h) {k : Kid} {p : Ref × DiskNode K V} {l : List (K × V)}, C.odds = 0 →
    p ∈ (C.dirty.bun P k).2.2.1 → p.2.body = .leaf l → ∀ x ∈ l, x ∈ C.lflat ++ C.rflat
  | _, .top, k, p, l, hz, hp, hl => by simp [Ctx.dirty, Ctx.bun] at hp
  | _, .fr i st pre post up, k, p, l, hz, hp, hl => by
      simp only [Ctx.dirty, Ctx.bun, innerB, Prod.snd_add, Prod.fst_add, ownPage_none, add_zero, cellB_3, lruB_3,
        zero_add, Multiset.mem_add] at hp
      have hz : (((Row.kidsH pre).map Gt.odds).sum = 0 ∧ (post.map fun p => p.2.odds).sum = 0) ∧ up.odds = 0 := by
        rw [Ctx.odds] at hz
        exact ⟨msum_zero (msum_zero hz).1, (msum_zero hz).2⟩
      intro x hx
      simp only [Ctx.lflat, Ctx.rflat, List.mem_append, List.mem_flatMap]
      rcases hp with (hp | hp) | hp
      · obtain ⟨t, ht, hp⟩ := mem_kidsB.1 hp
        exact .inl (.inr ⟨t, ht, pages_items t (listSum_zero hz.1.1 ht) hp hl x hx⟩)
      · obtain ⟨t, ht, hp⟩ := mem_kidsB.1 hp
        obtain ⟨⟨y, t⟩, ht', rfl⟩ := List.mem_map.1 ht
        exact .inr (.inl ⟨(y, t), ht', pages_items t (listSum_zero (f := fun p : K × Gt K V _ => p.2.odds) hz.1.2 ht') hp hl x hx⟩)
      · rcases List.mem_append.1 (Ctx.dirty_pages_items up hz.2 hp hl x hx) with h | h
        · exact .inl (.inl h)
        · exact .inr (.inr h)

/-- TouchItem: the leaf that holds the item and everything above it become dirty, and the index just past
that leaf is returned. -/
theorem touchItem_run (hr : Rest P w0 T R g w) {fuel : Nat} (hf : H + P.max < fuel) (k : Nat) :
    Res (touchItem P.cmp P.τ fuel k w)
      (fun a w' => (g.erase.flat.length ≤ k ∧ a = 0 ∧ w' = w) ∨
        ∃ (x l y : List (K × V)) (g' : Gt K V H), g.erase.flat = x ++ l ++ y ∧ x.length ≤ k ∧ k < x.length + l.length ∧
          a = x.length + l.length ∧ Alike g g' ∧ (g'.st = none ∧ g'.due ≤ g.due + (H + 1)) ∧ Rest P w0 T R g' w' ∧ (bun P ⟨none, true⟩ g').2.2.1 ≤ (bun P ⟨none, true⟩ g).2.2.1 ∧
          ∀ p ∈ (bun P ⟨none, true⟩ g').2.2.1, ∀ l', p.2.body = .leaf l' → ∀ z ∈ l', z ∈ x ++ y)
      (fun e w' => Faulty w0 e ∧ Same P w0 T R g w') := by
  unfold touchItem
  rw [bind_ok hr.root, getN_bind, hr.items]
  by_cases h0 : g.erase.flat.length = 0
  · rw [if_pos h0]
    exact Res.ok rfl (.inl ⟨by omega, rfl, rfl⟩)
  rw [if_neg h0]
  by_cases hk : k ≥ g.erase.flat.length
  · rw [if_pos hk]
    exact Res.ok rfl (.inl ⟨hk, rfl, rfl⟩)
  rw [if_neg hk]
  refine (hr.byIndex false (by omega) hf).bind (fun e w h => h) ?_
  rintro _ w1 ⟨C, i, st, l, k', rfl, h1, h2, ha⟩
  have hflat := ha.flat
  obtain ⟨hs, hI⟩ := ha
  obtain ⟨w2, e2, h3⟩ := touchUp_run C (c := mkCell P C.pos i st (.leaf l.length l)) (st := st) (b := st.isNone)
    (e := mkDisk P C.pos.root l.length (.leaf l)) (fuel := fuel) (n := l.length) (s := st) (by omega) rfl rfl rfl
    (hI.eq (by rw [bun_leaf]; rfl))
  have e2' : touchLoadedNodeToRoot P.τ fuel i w1 = (.ok (), w2) := e2
  have hkv : KvIs P.toCmp (w2.node i).kv (leafKv l) := by
    have := (h3.eq (by rw [add_assoc])).cell.body
    exact this.2.2.2
  simp only []
  rw [bind_ok e2', bind_ok (kvLen_run hkv)]
  have hz := hr.odds
  rw [← hs.odds, Ctx.plug_odds, odds_leaf, add_zero] at hz
  have hpg := hs.pages ⟨none, true⟩
  rw [bun_plug] at hpg
  refine Res.ok rfl (.inr ⟨C.lflat, l, C.rflat, C.dirty.plug (.leaf i none l), hflat, by omega, by omega, ?_, ⟨?_, ?_, ?_, ?_⟩, ⟨C.dirty.plug_st C.dirty_dirty rfl, leaf_due hs hr.odds⟩, ?_, ?_, ?_⟩)
  · rw [leafKv_length, sub64, if_pos (by simp; omega)]; simp; omega
  · rw [Ctx.plug_id, Ctx.dirty_rid, ← hs.id, Ctx.plug_id]; rfl
  · rw [C.plug_dirty_erase (t := .leaf i st l) (t' := .leaf i none l) rfl, hs.erase]
  · rw [Ctx.plug_clean]
    exact ⟨Ctx.dirty_clean ((Ctx.plug_clean _ _).1 (hs.clean hr.clean)).1 _, by simp⟩
  · rw [Ctx.plug_odds, Ctx.dirty_odds, hz]; rfl
  · have hid : C.rid i = g.id := by rw [← hs.id, Ctx.plug_id]; rfl
    have hc := hr.occ
    have ho := hr.ord
    rw [← hs.erase, Ctx.plug_occ] at hc
    rw [← hs.erase, Ctx.plug_seq] at ho
    refine ⟨?_, ?_, ?_, ?_, ?_⟩
    · rw [Ctx.plug_id, Ctx.dirty_rid, id_leaf, hid, bun_plug, bun_leaf, leafB, Ctx.dirty_pos]
      refine h3.eq ?_
      simp only [Option.isNone_none, ownPage_none, Gt.kid, id_leaf, cnt_leaf, st_leaf, mkCell, refOf,
          Option.getD_none, add_zero]
      abel
    · rw [Ctx.plug_clean]
      exact ⟨Ctx.dirty_clean ((Ctx.plug_clean _ _).1 (hs.clean hr.clean)).1 _, by simp⟩
    · rw [Ctx.plug_odds, Ctx.dirty_odds, hz]; rfl
    · rw [C.plug_dirty_erase (t := .leaf i st l) (t' := .leaf i none l) rfl, hs.erase]; exact hr.occ
    · rw [C.plug_dirty_erase (t := .leaf i st l) (t' := .leaf i none l) rfl, hs.erase]; exact hr.ord
  · rw [← hpg, bun_plug]
    simp only [Prod.snd_add, Prod.fst_add]
    rw [bun_leaf, leafB]
    simp only [Prod.snd_add, Prod.fst_add, ownPage_none, cellB_3, lruB_3, Prod.snd_zero, Prod.fst_zero, zero_add, add_zero]
    exact (C.dirty_pages_le _ _).trans (le_add_of_nonneg_left (Multiset.zero_le _))
  · intro p hp l' hl'
    rw [bun_plug] at hp
    rw [bun_leaf, leafB] at hp
    simp only [Prod.snd_add, Prod.fst_add, ownPage_none, cellB_3, lruB_3, Prod.snd_zero, Prod.fst_zero, zero_add, add_zero] at hp
    exact C.dirty_pages_items hz hp hl'

/-- No leaf is empty. -/
def Pt.Full : {h : Nat} → Pt K V h → Prop
  | 0, l => @_root_.id (List (K × V)) l ≠ []
  | h + 1, r => ∀ c ∈ (@_root_.id (Row K (Pt K V h)) r).kids, Pt.Full c

theorem full_leaf {l : List (K × V)} : (Pt.leaf l).Full ↔ l ≠ [] := Iff.rfl
theorem full_inner {r : Row K (Pt K V h)} : (Pt.inner r).Full ↔ ∀ c ∈ r.kids, c.Full := Iff.rfl

theorem Pt.Occ.full {mn mx : Nat} (hm : 0 < mn) : ∀ {h : Nat} {p : Pt K V h}, p.Occ mn mx → p.Full
  | 0, p, hp => by
      obtain ⟨l, e⟩ := p.cases0
      rw [e] at hp ⊢
      rw [occ_leaf] at hp
      rw [full_leaf]
      rintro rfl
      simp at hp; omega
  | h + 1, p, hp => by
      obtain ⟨r, e⟩ := p.casesS
      rw [e] at hp ⊢
      rw [occ_inner] at hp
      rw [full_inner]
      exact fun c hc => Pt.Occ.full hm (hp.2 c hc)

theorem Pt.RootOcc.full {mn mx : Nat} (hm : 0 < mn) {p : Pt K V h} (hp : p.RootOcc mn mx) (hne : p.flat ≠ []) : p.Full := by
  cases h with
  | zero => obtain ⟨l, rfl⟩ := p.cases0; exact hne
  | succ h =>
    obtain ⟨r, e⟩ := p.casesS
    rw [e] at hp ⊢
    rw [rootOcc_inner] at hp
    rw [full_inner]
    exact fun c hc => (hp.2 c hc).full hm

theorem stored_pages {q : Pos} {t : Gt K V h} (hz : t.odds = 0) (hs : t.st.isSome) : (bun P q t).2.2.1 ≠ 0 := by
  cases h with
  | zero =>
    rcases t.cases0 with ⟨i, d, rfl⟩ | ⟨i, st, l, rfl⟩ | ⟨i, o, l, rfl⟩
    · rw [bun_unl, Dt.pages_eq]; simp [cellB, offB, pagesB]
    · obtain ⟨r, hr⟩ := Option.isSome_iff_exists.1 hs
      rw [st_leaf] at hr
      rw [bun_leaf, leafB, hr]; simp [cellB, lruB, pageB]
    · simp at hz
  | succ h =>
    rcases t.casesS with ⟨i, d, rfl⟩ | ⟨i, st, l, rfl⟩ | ⟨i, o, l, rfl⟩
    · rw [bun_unl, Dt.pages_eq]; simp [cellB, offB, pagesB]
    · obtain ⟨r, hr⟩ := Option.isSome_iff_exists.1 hs
      rw [st_inner] at hr
      rw [bun_inner, innerB, hr]; simp [cellB, lruB, pageB]
    · simp [odds_odInner] at hz

/-- A stored tree has a leaf page with items. -/
theorem Dt.leafPage : ∀ {h : Nat} (d : Dt K V h) {root : Bool}, d.erase.Full →
    ∃ p ∈ d.pages P root, ∃ l, p.2.body = .leaf l ∧ l ≠ []
  | 0, d, root, hd => by
      obtain ⟨ref, l, rfl⟩ := d.cases0
      exact ⟨_, by rw [pages_leaf]; exact Multiset.mem_singleton_self _, l, rfl, hd⟩
  | h + 1, d, root, hd => by
      obtain ⟨ref, r, rfl⟩ := d.casesS
      rw [erase_dinner, full_inner] at hd
      obtain ⟨p, h1, h2⟩ := Dt.leafPage r.c0 (root := false) (hd r.c0.erase (by
        rw [Row.kids_map]; exact List.mem_map_of_mem (by simp [Row.kids])))
      refine ⟨p, ?_, h2⟩
      rw [pages_inner]
      exact Multiset.mem_cons_of_mem (mem_listSum.2 ⟨r.c0, by simp [Row.kids], h1⟩)

/-- When no leaf page has items, no node is stored. -/
theorem pages_gone : ∀ {h : Nat} (t : Gt K V h) {q : Pos}, t.odds = 0 → t.Clean → t.erase.Full →
    (∀ p ∈ (bun P q t).2.2.1, ∀ l, p.2.body = .leaf l → l = []) → (bun P q t).2.2.1 = 0
  | 0, t, q, hz, hc, hf, hp => by
      rcases t.cases0 with ⟨i, d, rfl⟩ | ⟨i, st, l, rfl⟩ | ⟨i, o, l, rfl⟩
      · obtain ⟨p, h1, l, h2, h3⟩ := Dt.leafPage (P := P) d (root := q.root) (by rw [← erase_unl i]; exact hf)
        exact absurd (hp p (by rw [bun_unl]; simpa [cellB, offB] using h1) l h2) h3
      · cases st with
        | none => rw [bun_leaf, leafB]; simp [cellB, lruB]
        | some ref =>
          refine absurd (hp (ref, mkDisk P q.root l.length (.leaf l)) ?_ l rfl) hf
          rw [bun_leaf, leafB]; simp [cellB, lruB, pageB]
      · simp at hz
  | h + 1, t, q, hz, hc, hf, hp => by
      rcases t.casesS with ⟨i, d, rfl⟩ | ⟨i, st, r, rfl⟩ | ⟨i, o, r, rfl⟩
      · obtain ⟨p, h1, l, h2, h3⟩ := Dt.leafPage (P := P) d (root := q.root) (by rw [← erase_unl i]; exact hf)
        exact absurd (hp p (by rw [bun_unl]; simpa [cellB, offB] using h1) l h2) h3
      · rw [erase_inner, full_inner, Row.kids_map] at hf
        have hb : (bun P q (.inner i st r)).2.2.1 = (innerB P q i st (r.map Gt.kid)).2.2.1 + (kidsB P i r.kids).2.2.1 := rfl
        have hk : ∀ c ∈ r.kids, (bun P (.child i) c).2.2.1 = 0 := by
          intro c hc'
          refine pages_gone c (odds_kid hz hc') (clean_st hc c hc') (hf _ (List.mem_map_of_mem hc')) ?_
          intro p hp'
          refine hp p ?_
          rw [hb]
          exact Multiset.mem_add.2 (.inr (mem_kidsB.2 ⟨c, hc', hp'⟩))
        cases st with
        | none =>
          rw [hb]
          refine Multiset.eq_zero_of_forall_notMem fun p hp' => ?_
          rcases Multiset.mem_add.1 hp' with h1 | h1
          · simp [innerB, cellB, lruB] at h1
          · obtain ⟨c, h2, h3⟩ := mem_kidsB.1 h1
            simp [hk c h2] at h3
        | some ref =>
          have h0 : r.c0 ∈ r.kids := by simp [Row.kids]
          exact absurd (hk r.c0 h0) (stored_pages (odds_kid hz h0) (((Clean_inner _ _ _).1 hc r.c0 h0).2 rfl))
      · simp [odds_odInner] at hz

/-- A client's sweep: TouchItem from an index on, each time from the index returned, until it returns 0. -/
def sweep (cmp : Compare K) (τ : TreeId) (fuel : Nat) : Nat → Nat → M K V (List Nat)
  | 0, _ => pure []
  | n + 1, k => do
      let j ← touchItem cmp τ fuel k
      if j = 0 then return [] else do return j :: (← sweep cmp τ fuel n j)

/-- What is known once the sweep has got to index `k`. -/
structure Swept (P : Par K) (g g' : Gt K V H) (k : Nat) : Prop where
  alike : Alike g g'
  le : (bun P ⟨none, true⟩ g').2.2.1 ≤ (bun P ⟨none, true⟩ g).2.2.1
  past : ∀ p ∈ (bun P ⟨none, true⟩ g').2.2.1, ∀ l, p.2.body = .leaf l → ∀ z ∈ l, z ∈ g.erase.flat.drop k

theorem flat_nodup {p : Pt K V h} (ho : Ord P.toCmp p.seq) : (p.flat.map Prod.fst).Nodup := by
  have := ho.flat
  rw [List.Nodup, List.pairwise_map]
  refine this.1.imp_of_mem ?_
  intro a b ha _ hab heq
  rw [← heq] at hab
  rw [P.law.ltb_irrefl (this.2 a ha)] at hab
  cases hab

theorem Alike.refl' {t : Gt K V h} (hz : t.odds = 0) (hc : t.Clean) : Alike t t := ⟨rfl, rfl, hc, hz⟩

theorem sweep_run {g0 : Gt K V H} {fuel : Nat} (hf : H + P.max < fuel) : ∀ (n k : Nat) {g : Gt K V H} {w : World K V},
    g0.erase.flat.length < k + n → k ≤ g0.erase.flat.length → Swept P g0 g k → Rest P w0 T R g w →
    Res (sweep P.cmp P.τ fuel n k w)
      (fun a w' => (k :: a).Pairwise (· < ·) ∧ (k :: a).getLast (by simp) = g0.erase.flat.length ∧ ∃ g', Swept P g0 g' g0.erase.flat.length ∧ Rest P w0 T R g' w')
      (fun e w' => Faulty w0 e ∧ ∃ g', Alike g0 g' ∧ Rest P w0 T R g' w')
  | 0, k, g, w, hn, hk, hs, hr => by omega
  | n + 1, k, g, w, hn, hk, hs, hr => by
      rw [sweep]
      refine (touchItem_run hr hf k).bind ?_ ?_
      · rintro e w1 ⟨h1, g', h2, h3⟩
        exact ⟨h1, g', hs.alike.trans (h2.alike hr.odds hr.clean), h3⟩
      · rintro a w1 (⟨h1, rfl, rfl⟩ | ⟨x, l, y, g', h1, h2, h3, rfl, h4, -, h5, h6, h7⟩)
        · rw [if_pos rfl]
          rw [hs.alike.erase] at h1
          have : k = g0.erase.flat.length := by omega
          exact Res.ok rfl ⟨by simp, by simpa using this, g, this ▸ hs, hr⟩
        · rw [if_neg (by omega)]
          rw [hs.alike.erase] at h1
          have hlen : g0.erase.flat.length = x.length + l.length + y.length := by rw [h1]; simp; omega
          refine (sweep_run hf n (x.length + l.length) (g := g') (by omega) (by omega) ⟨hs.alike.trans h4, h6.trans hs.le, ?_⟩ h5).bind ?_ ?_
          · intro p hp l' hl' z hz
            have hb := h7 p hp l' hl' z hz
            have hc := hs.past p (Multiset.mem_of_le h6 hp) l' hl' z hz
            have hnd := flat_nodup (hs.alike.erase ▸ hr.ord)
            rw [h1] at hc hnd ⊢
            have e1 : (x ++ l ++ y).drop (x.length + l.length) = y := by
              rw [List.drop_append_of_le_length (by simp)]; simp
            rw [e1]
            rcases List.mem_append.1 hb with hb | hb
            · exfalso
              rw [List.append_assoc, List.drop_append] at hc
              rw [List.drop_of_length_le h2, List.nil_append] at hc
              have hc := List.mem_of_mem_drop hc
              rw [List.append_assoc, List.map_append] at hnd
              exact (List.nodup_append.1 hnd).2.2 z.1 (List.mem_map_of_mem hb) z.1 (List.mem_map_of_mem hc) rfl
            · exact hb
          · exact fun e w h => h
          · rintro b w2 ⟨b1, b2, b3⟩
            refine Res.ok rfl ⟨?_, by simpa using b2, b3⟩
            refine List.Pairwise.cons ?_ b1
            intro c hc
            rcases List.mem_cons.1 hc with rfl | hc
            · omega
            · have := (List.pairwise_cons.1 b1).1 c hc
              omega

/-- A whole sweep of a tree that is not empty leaves none of its nodes stored. -/
theorem sweep_all (hr : Rest P w0 T R g w) {fuel n : Nat} (hf : H + P.max < fuel) (hn : g.erase.flat.length < n) :
    Res (sweep P.cmp P.τ fuel n 0 w)
      (fun a w' => (0 :: a).Pairwise (· < ·) ∧ (0 :: a).getLast (by simp) = g.erase.flat.length ∧
        ∃ g', Alike g g' ∧ (g.erase.flat ≠ [] → (bun P ⟨none, true⟩ g').2.2.1 = 0) ∧ Rest P w0 T R g' w')
      (fun e w' => Faulty w0 e ∧ ∃ g', Alike g g' ∧ Rest P w0 T R g' w') := by
  refine (sweep_run hf n 0 (g0 := g) (by omega) (by omega) ⟨.refl' hr.odds hr.clean, le_refl _, ?_⟩ hr).mono ?_ ?_
  · intro p hp l hl z hz
    exact pages_items g hr.odds hp hl z hz
  · rintro a w' ⟨h1, h2, g', h3, h4⟩
    refine ⟨h1, h2, g', h3.alike, fun hne => ?_, h4⟩
    refine pages_gone g' h4.odds h4.clean (h4.occ.full P.min_pos (by rw [h3.alike.erase]; exact hne)) ?_
    intro p hp l hl
    refine List.eq_nil_iff_forall_not_mem.2 fun z hz => ?_
    simpa using h3.past p hp l hl z hz
  · exact fun _ _ h => h

end

end SM.BT

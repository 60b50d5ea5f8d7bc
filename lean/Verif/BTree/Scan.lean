import Verif.BTree.Away
import Verif.BTree.DumpProofs

/-! Validate, FetchLayoutReport and Dump read no node twice, and none that is in memory. -/

namespace SM.BT

variable {K V : Type}

section
variable {P : Par K} {w0 : World K V} {T : Tot K V} {ρ : Option Id} {R : B K V} {H h : Nat}

theorem bind_dry {α β : Type} {m : M K V α} {f : α → M K V β} {w : World K V} (hf : ∀ x, Dry (f x)) : ((m >>= f) w).2.env.gets = (m w).2.env.gets := by
  show (M.bind m f w).2.env.gets = _
  unfold M.bind
  split
  · rename_i a w' e
    rw [(hf a).run w', e]
  · rename_i e; rw [e]
  · rename_i e; rw [e]

/-- At most the nodes below that are not in memory were read. -/
def Once (P : Par K) (q : Pos) (t : Gt K V h) (w w' : World K V) : Prop := w'.env.gets + (bun P q t).here ≤ w.env.gets + (bun P q t).stored

/-- `ensure_run` -/
theorem ensure_once {q : Pos} {t : Gt K V h} {w : World K V} (hI : I P w0 T w ρ (bun P q t + R)) (ho : Ord P.toCmp t.erase.seq) (hz : t.odds = 0) :
    Res ((if !(w.node t.id).loaded then loadNode P.cmp P.τ t.id else pure ()) w)
      (fun _ w' => ∃ g : Gt K V h, g.ld = true ∧ Sim P t g ∧ I P w0 T w' ρ (bun P q g + R) ∧
        ∀ w'', Once P q g w' w'' → Once P q t w w'')
      (fun _ w' => Once P q t w w') := by
  have h0 := ensure_run rfl hI ho
  cases hl : t.ld with
  | true =>
    rw [hI.loaded, hl]
    exact Res.ok rfl ⟨t, hl, .refl t, hI, fun _ h => h⟩
  | false =>
    have hr := (Reads.loadNode P.cmp P.τ t.id).run w
    have h1 := stored_page (P := P) (q := q) t hl
    have h2 := here_unl (P := P) q t hl
    rw [hI.loaded, hl] at h0 ⊢
    simp only [Bool.not_false, if_true] at h0 ⊢
    rcases h0.cases with ⟨a, w1, e1, g, gl, hs, hI'⟩ | ⟨e, w1, e1, -⟩
    · rw [e1] at hr
      refine Res.ok e1 ⟨g, gl, hs, hI', fun w'' hw => ?_⟩
      have h3 : (bun P q g).stored = (bun P q t).stored := by rw [B.stored, hs.pages]; rfl
      have h4 : 1 ≤ (bun P q g).here := by
        have hst : g.st.isSome = true := by
          rw [hs.st]
          cases t with
          | unl i d => rfl
          | ld i st x => cases hl
          | od i o x => cases hl
        have hzg : g.odds = 0 := by rw [hs.odds]; exact hz
        cases h with
        | zero =>
          rcases g.cases0 with ⟨i, d, rfl⟩ | ⟨i, st, l, rfl⟩ | ⟨i, o, l, rfl⟩
          · cases gl
          · rw [bun_leaf, here_leaf, if_pos (show st.isSome = true from hst)]
          · simp at hzg
        | succ h =>
          rcases g.casesS with ⟨i, d, rfl⟩ | ⟨i, st, r, rfl⟩ | ⟨i, o, l, rfl⟩
          · cases gl
          · rw [bun_inner, B.here_add, here_inner, if_pos (show st.isSome = true from hst)]; omega
          · simp [odds_odInner] at hzg
      simp only [Once] at hw ⊢
      simp only at hr
      omega
    · rw [e1] at hr
      refine Res.err e1 ?_
      simp only [Once]
      simp only at hr
      omega

/-- What going through a child does. -/
def Scans (P : Par K) (w0 : World K V) (T : Tot K V) (ρ : Option Id) (i : Id) (rec : Id → M K V Unit) (t : Gt K V h) : Prop :=
  ∀ (R : B K V) (w : World K V), I P w0 T w ρ (bun P (.child i) t + R) →
    Res (rec t.id w) (fun _ w' => (∃ g, Sim P t g ∧ I P w0 T w' ρ (bun P (.child i) g + R)) ∧ Once P (.child i) t w w') (fun _ w' => Once P (.child i) t w w')

theorem validateChild_once {i : Id} {rec : Id → M K V Unit} {t : Gt K V h} {w : World K V} (line : Nat) (hc : Scans P w0 T ρ i rec t) (hz : t.odds = 0)
    (hI : I P w0 T w ρ (bun P (.child i) t + R)) :
    Res (validateChild line i rec t.id w)
      (fun _ w' => (∃ g, Sim P t g ∧ I P w0 T w' ρ (bun P (.child i) g + R)) ∧ Once P (.child i) t w w') (fun _ w' => Once P (.child i) t w w') := by
  unfold validateChild
  rw [getN_bind, (hI.head hz).1, bind_ok (valid_true (by simp [Pos.child]) w)]
  refine (hc R w hI).bind (fun e w h => h) ?_
  rintro _ w' h
  rw [getN_bind]
  exact Res.ok rfl h

theorem validateLoop_once {i : Id} {rec : Id → M K V Unit} {q : Pos} {st : Option Ref} {κ : Row K Kid} :
    ∀ (post done : List (Gt K V h)) (n k : Nat) {w : World K V}, (done ++ post).map Gt.kid = κ.kids → done.length = n + 1 → post.length = k →
      (∀ t ∈ post, Scans P w0 T ρ i rec t ∧ t.odds = 0) → I P w0 T w ρ (innerB P q i st κ + (kidsB P i (done ++ post) + R)) →
      (validateLoop i rec n k w).2.env.gets + (kidsB P i post).here ≤ w.env.gets + (kidsB P i post).stored
  | [], done, n, k, w, _, _, hk, _, hI => by
      simp only [List.length_nil] at hk
      subst hk
      exact Nat.le_refl _
  | t :: post, done, n, k, w, hκ, hd, hk, hc, hI => by
      simp only [List.length_cons] at hk
      subst hk
      have hh : HasKids P (w.node i) κ := by
        have := hI
        rw [innerB, add_assoc, add_assoc] at this
        exact this.cell.hasKids
      have hn : κ.kids[n + 1]? = some t.kid := by rw [← hκ, ← hd]; simp
      have hn2 : ∃ k, κ.cs[n]? = some (k, t.kid) := by
        simp only [Row.kids, List.getElem?_cons_succ, List.getElem?_map, Option.map_eq_some_iff] at hn
        obtain ⟨⟨k, x⟩, h1, h2⟩ := hn
        exact ⟨k, by rw [h1]; simp at h2; rw [h2]⟩
      obtain ⟨k, hn2⟩ := hn2
      have e1 := kvChildOk_run hh.kv (n := n) (k := k) (c := t.id) (by simp [hn2, Gt.kid]) 94
      rw [validateLoop, bind_ok e1]
      have hI1 := hI.eq (R' := bun P (Pos.child i) t + (innerB P q i st κ + (kidsB P i (done ++ post) + R))) (by
        simp only [kidsB_append, kidsB_cons]; abel)
      have hsp : ∀ (g : Gt K V h) (post' : List (Gt K V h)), innerB P q i st κ + (kidsB P i (done ++ g :: post') + R) =
          bun P (Pos.child i) g + (innerB P q i st κ + (kidsB P i (done ++ post') + R)) := by
        intro g post'
        simp only [kidsB_append, kidsB_cons]; abel
      have hrest := here_le_kids (P := P) i post fun x hx => (hc x (by simp [hx])).2
      rw [kidsB_cons, B.here_add, B.stored_add]
      rcases (validateChild_once 101 (hc t (by simp)).1 (hc t (by simp)).2 hI1).cases with ⟨a, w1, e2, ⟨g, h2, h3⟩, h4⟩ | ⟨e, w1, e2, h4⟩
      · rw [bind_ok e2]
        rw [← hsp] at h3
        have ih := validateLoop_once post (done ++ [g]) (n + 1) post.length (w := w1) (by rw [← hκ]; simp [h2.kid]) (by simp [hd]) rfl
          (fun t ht => hc t (by simp [ht])) (by simpa using h3)
        simp only [Once] at h4
        rw [bind_dry fun _ => .pure _]
        omega
      · rw [bind_err e2]
        simp only [Once] at h4
        show w1.env.gets + _ ≤ _
        omega

theorem validateNode_once : ∀ {h : Nat} {q : Pos} (t : Gt K V h) {w : World K V} {R : B K V} {fuel : Nat}, h < fuel →
    I P w0 T w ρ (bun P q t + R) → t.odds = 0 → Ord P.toCmp t.erase.seq → q.Occ P t.erase → Once P q t w (validateNode P.cmp fuel t.id w).2
  | h, q, t, w, R, 0, hf, _, _, _, _ => by omega
  | h, q, t, w, R, fuel + 1, hf, hI, hz, ho, hocc => by
      have htree := (hI.head hz).2.2.1
      have hen := ensure_once hI ho hz
      have e0 : validateLoad P.cmp t.id w = (if !(w.node t.id).loaded then loadNode P.cmp P.τ t.id else pure ()) w := by
        rw [validateLoad, getN_bind, htree]
      rw [← e0] at hen
      unfold validateNode
      rcases hen.cases with ⟨a, w1, e1, g, gl, hs, h1, hon⟩ | ⟨e, w1, e1, h1⟩
      swap
      · rw [bind_err e1]; exact h1
      rw [bind_ok e1, ← hs.id, getN_bind]
      refine hon _ ?_
      have hz1 : g.odds = 0 := by rw [hs.odds]; exact hz
      rw [← hs.erase] at ho hocc
      clear hon hen e0 hI hz htree hs e1
      have hmin := h1.min; have hmax := h1.max
      cases h with
      | zero =>
        rcases g.cases0 with ⟨i, d, rfl⟩ | ⟨i, st, l, rfl⟩ | ⟨i, o, l, rfl⟩
        · cases gl
        · have hl := h1.isLeaf
          rw [show (w1.node (Gt.leaf i st l).id).leaf = true from hl.leaf, if_pos rfl]
          have hle := here_le (P := P) q _ hz1
          simp only [Once]
          have hd : Dry (do
            kvValidate (Gt.leaf i st l : Gt K V 0).id
            let num ← kvLen (Gt.leaf i st l : Gt K V 0).id
            valid 38 (num == (w1.node (Gt.leaf i st l : Gt K V 0).id).items)
            let t ← getT (w1.node (Gt.leaf i st l : Gt K V 0).id).tree
            valid 43 ((w1.node (Gt.leaf i st l : Gt K V 0).id).root || num ≥ t.min)
            valid 47 (num ≤ t.max) : M K V Unit) := by dry
          rw [hd.run w1]
          omega
        · simp at hz1
      | succ h =>
        rcases g.casesS with ⟨i, d, rfl⟩ | ⟨i, st, r, rfl⟩ | ⟨i, o, l, rfl⟩
        · cases gl
        · have hin := h1.isInner
          rw [show (w1.node (Gt.inner i st r).id).leaf = false from hin.leaf, if_neg (by simp)]
          simp only [id_inner, hin.left, hin.tree, hin.root]
          rw [erase_inner] at hocc ho
          have h3 : r.cs.length ≤ P.max ∧ (q.root = false → P.min ≤ r.cs.length) ∧ ∀ c ∈ r.kids, c.erase.Occ P.min P.max := by
            rcases hocc with ⟨a, b⟩ | ⟨a, b⟩
            · rw [rootOcc_inner] at b
              simp only [Row.map_cs, List.length_map, Row.kids_map, List.mem_map, forall_exists_index, and_imp,
                forall_apply_eq_imp_iff₂] at b
              exact ⟨b.1.2, by simp [a], b.2⟩
            · rw [occ_inner] at b
              simp only [Row.map_cs, List.length_map, Row.kids_map, List.mem_map, forall_exists_index, and_imp,
                forall_apply_eq_imp_iff₂] at b
              exact ⟨b.1.2, fun _ => b.1.1, b.2⟩
          have hrec : ∀ c ∈ r.kids, Scans P w0 T ρ i (validateNode P.cmp fuel) c ∧ c.odds = 0 := by
            intro c hc
            have hcz := odds_kid hz1 hc
            refine ⟨fun R' w' hI' => ?_, hcz⟩
            have hok : Ord P.toCmp c.erase.seq := ho.kid (by rw [Row.kids_map]; exact List.mem_map_of_mem hc)
            have k1 := validateNode_run c (fuel := fuel) (by omega) hI' hcz hok (.inr ⟨rfl, h3.2.2 c hc⟩)
            have k2 := validateNode_once c (fuel := fuel) (by omega) hI' hcz hok (.inr ⟨rfl, h3.2.2 c hc⟩)
            rcases k1.cases with ⟨a, w2, e2, k3⟩ | ⟨e, w2, e2, -⟩
            · rw [e2] at k2; exact Res.ok e2 ⟨k3, k2⟩
            · rw [e2] at k2; exact Res.err e2 k2
          have hkids : r.kids = r.c0 :: r.cs.map Prod.snd := rfl
          have h1' : I P w0 T w1 ρ (bun P (Pos.child i) r.c0 + (innerB P q i st (r.map Gt.kid) + (kidsB P i (r.cs.map Prod.snd) + R))) := by
            refine h1.eq ?_
            rw [bun_inner]
            show innerB P q i st (r.map Gt.kid) + kidsB P i r.kids + R = _
            rw [hkids, kidsB_cons]; abel
          have hrest := here_le_kids (P := P) i (r.cs.map Prod.snd) fun x hx => (hrec x (by rw [hkids]; exact List.mem_cons_of_mem _ hx)).2
          have hall : (bun P q (.inner i st r)).here = (if st.isSome then 1 else 0) + ((bun P (.child i) r.c0).here + (kidsB P i (r.cs.map Prod.snd)).here) := by
            rw [bun_inner, B.here_add, here_inner, kids_sum, hkids, kidsB_cons, B.here_add]
          have hall' : (bun P q (.inner i st r)).stored = (if st.isSome then 1 else 0) + ((bun P (.child i) r.c0).stored + (kidsB P i (r.cs.map Prod.snd)).stored) := by
            rw [bun_inner, B.stored_add, stored_inner, kids_sum, hkids, kidsB_cons, B.stored_add]
          simp only [Once]
          rw [hall, hall']
          rcases (validateChild_once 55 (hrec r.c0 (by simp [hkids])).1 (hrec r.c0 (by simp [hkids])).2 h1').cases with ⟨a, w2, e2, ⟨c', b2, b3⟩, b7⟩ | ⟨e, w2, e2, b7⟩
          swap
          · rw [bind_err e2]
            simp only [Once] at b7
            show w2.env.gets + _ ≤ _
            omega
          · have b4 := b3.eq (R' := innerB P q i st (r.map Gt.kid) + (kidsB P i ([c'] ++ r.cs.map Prod.snd) + R)) (by
              rw [List.singleton_append, kidsB_cons]; abel)
            obtain ⟨r2, a1, b5, -⟩ := Sim.row (i := i) (st := st) (r := r) (L := [c'] ++ r.cs.map Prod.snd) (.cons b2 (forall₂_sim_refl _))
            have b6 : I P w0 T w2 ρ (bun P q (.inner i st r2) + R) := by
              rw [bun_inner, a1, b5, add_assoc]; exact b4
            have hin2 := b6.isInner
            have elen : r2.cs.length = r.cs.length := by
              have := congrArg (fun r => r.cs.length) b5
              simpa using this
            rw [bind_ok e2, bind_ok (kvValidate_run hin2.kv), bind_ok (kvLen_run hin2.kv), getT_bind, b6.min, b6.max]
            simp only [innerKv_length, List.length_map, elen, Int.toNat_natCast]
            rw [bind_ok (valid_true (by
              cases hq : q.root with
              | true => rfl
              | false => have := h3.2.1 hq; simp; omega) w2)]
            rw [bind_ok (valid_true (by simp; omega) w2)]
            have hlo := validateLoop_once (rec := validateNode P.cmp fuel) (r.cs.map Prod.snd) [c'] 0 r.cs.length (w := w2) (by rw [Row.kids_map, hkids]; simp [b2.kid]) rfl (by simp)
              (fun t ht => hrec t (by rw [hkids]; exact List.mem_cons_of_mem _ ht)) b4
            rw [bind_dry fun b => by dry]
            simp only [Once] at b7
            omega
        · simp [odds_odInner] at hz1

/-- `Validate` -/
theorem Rest.validateAway {g : Gt K V H} {w : World K V} {fuel : Nat} (hr : Rest P w0 T R g w) (hf : H < fuel) :
    (step P.cmp P.τ fuel .validate w).2.env.gets + Multiset.card (g.mem.filter fun p => p.2 = false) ≤ w.env.gets + Multiset.card (bun P ⟨none, true⟩ g).2.2.1 := by
  rw [← here_mem (P := P) ⟨none, true⟩ g hr.odds]
  have h0 := validateNode_once g hf hr.I hr.odds hr.ord (.inl ⟨rfl, hr.occ⟩)
  simp only [step, validate, bind_assoc_run]
  rw [bind_ok hr.root, bind_dry fun _ => by dry]
  exact h0

/-! ### FetchLayoutReport -/

/-- `Lays` and what is read. -/
def LaysOnce (P : Par K) (w0 : World K V) (T : Tot K V) (ρ : Option Id) (fuel : Nat) (i : Id) (t : Gt K V h) : Prop :=
  t.odds = 0 ∧ Lays P w0 T ρ fuel (.child i) t ∧ ∀ (S : Multiset Ref) (R : B K V) (w : World K V), I P w0 T w ρ (bun P (.child i) t + R) →
    Once P (.child i) t w (updateLayoutReport P.cmp P.τ fuel t.id (layoutOf S) w).2

theorem layoutLoop_once {i : Id} {q : Pos} {st : Option Ref} {κ : Row K Kid} {fuel : Nat} :
    ∀ (post done : List (Gt K V h)) (n k : Nat) {w : World K V} {S : Multiset Ref}, (done ++ post).map Gt.kid = κ.kids → done.length = n + 1 → post.length = k →
      (∀ t ∈ post, LaysOnce P w0 T ρ fuel i t) → I P w0 T w ρ (innerB P q i st κ + (kidsB P i (done ++ post) + R)) →
      (layoutLoop P.cmp P.τ fuel i n k (layoutOf S) w).2.env.gets + (kidsB P i post).here ≤ w.env.gets + (kidsB P i post).stored
  | [], done, n, k, w, S, _, _, hk, _, hI => by
      simp only [List.length_nil] at hk
      subst hk
      rw [layoutLoop]
      exact Nat.le_refl _
  | t :: post, done, n, k, w, S, hκ, hd, hk, hc, hI => by
      simp only [List.length_cons] at hk
      subst hk
      have hh : HasKids P (w.node i) κ := by
        have := hI
        rw [innerB, add_assoc, add_assoc] at this
        exact this.cell.hasKids
      have hn : κ.kids[n + 1]? = some t.kid := by rw [← hκ, ← hd]; simp
      have hn2 : ∃ k, κ.cs[n]? = some (k, t.kid) := by
        simp only [Row.kids, List.getElem?_cons_succ, List.getElem?_map, Option.map_eq_some_iff] at hn
        obtain ⟨⟨k, x⟩, h1, h2⟩ := hn
        exact ⟨k, by rw [h1]; simp at h2; rw [h2]⟩
      obtain ⟨k, hn2⟩ := hn2
      have e1 := kvChildOk_run hh.kv (n := n) (k := k) (c := t.id) (by simp [hn2, Gt.kid]) 3097
      rw [layoutLoop, bind_ok e1]
      have hI1 := hI.eq (R' := bun P (Pos.child i) t + (innerB P q i st κ + (kidsB P i (done ++ post) + R))) (by
        simp only [kidsB_append, kidsB_cons]; abel)
      have hsp : ∀ (g : Gt K V h) (post' : List (Gt K V h)), innerB P q i st κ + (kidsB P i (done ++ g :: post') + R) =
          bun P (Pos.child i) g + (innerB P q i st κ + (kidsB P i (done ++ post') + R)) := by
        intro g post'
        simp only [kidsB_append, kidsB_cons]; abel
      have hrest := here_le_kids (P := P) i post fun x hx => (hc x (by simp [hx])).1
      obtain ⟨-, hc1, hc2⟩ := hc t (by simp)
      have h4 := hc2 S _ w hI1
      rw [kidsB_cons, B.here_add, B.stored_add]
      simp only [Once] at h4
      rcases (hc1 S _ w hI1).cases with ⟨a, w1, e2, rfl, g, ⟨h2, -⟩, h3⟩ | ⟨e, w1, e2, -⟩
      · rw [bind_ok e2]
        rw [e2] at h4
        rw [← hsp] at h3
        have ih := layoutLoop_once post (done ++ [g]) (n + 1) post.length (w := w1) (S := S + (bun P (.child i) t).2.2.1.map Prod.fst) (by rw [← hκ]; simp [h2.kid]) (by simp [hd]) rfl
          (fun t ht => hc t (by simp [ht])) (by simpa using h3)
        simp only at h4
        omega
      · rw [bind_err e2]
        rw [e2] at h4
        simp only at h4 ⊢
        omega

theorem updateLayoutReport_once : ∀ {h : Nat} {q : Pos} (t : Gt K V h) {w : World K V} {R : B K V} {fuel : Nat} {S : Multiset Ref}, h < fuel →
    I P w0 T w ρ (bun P q t + R) → t.odds = 0 → t.Clean → Ord P.toCmp t.erase.seq →
    Once P q t w (updateLayoutReport P.cmp P.τ fuel t.id (layoutOf S) w).2
  | h, q, t, w, R, 0, S, hf, _, _, _, _ => by omega
  | h, q, t, w, R, fuel + 1, S, hf, hI, hz, hcl, ho => by
      have hen := ensure_once hI ho hz
      unfold updateLayoutReport
      rw [getN_bind]
      rcases hen.cases with ⟨a, w1, e1, g, gl, hs, h1, hon⟩ | ⟨e, w1, e1, h1⟩
      swap
      · rw [bind_err e1]; exact h1
      rw [bind_ok e1]
      refine hon _ ?_
      have hz1 : g.odds = 0 := by rw [hs.odds]; exact hz
      have hcl1 := hs.clean hcl
      rw [← hs.erase] at ho
      obtain ⟨-, -, -, href, -⟩ := h1.head hz1
      rw [← hs.id, getN_bind, href]
      simp only [Once]
      rw [bind_dry fun m => by dry]
      clear hon hen hI hz hs e1
      cases h with
      | zero =>
        rcases g.cases0 with ⟨i, d, rfl⟩ | ⟨i, st, l, rfl⟩ | ⟨i, o, l, rfl⟩
        · cases gl
        · have hl := h1.isLeaf
          have hle := here_le (P := P) q _ hz1
          rw [id_leaf, if_neg (by simp [hl.leaf])]
          show w1.env.gets + _ ≤ _
          omega
        · simp at hz1
      | succ h =>
        rcases g.casesS with ⟨i, d, rfl⟩ | ⟨i, st, r, rfl⟩ | ⟨i, o, l, rfl⟩
        · cases gl
        · have hin := h1.isInner
          rw [id_inner, if_pos (by simp [hin.leaf]), st_inner, hin.left]
          rw [erase_inner] at ho
          have hrec : ∀ c ∈ r.kids, LaysOnce P w0 T ρ fuel i c := by
            intro c hc
            have hok : Ord P.toCmp c.erase.seq := ho.kid (by rw [Row.kids_map]; exact List.mem_map_of_mem hc)
            exact ⟨odds_kid hz1 hc, updateLayoutReport_run c (by omega) (odds_kid hz1 hc) (clean_st hcl1 c hc) hok,
              fun S R w hI' => updateLayoutReport_once c (by omega) hI' (odds_kid hz1 hc) (clean_st hcl1 c hc) hok⟩
          have hkids : r.kids = r.c0 :: r.cs.map Prod.snd := rfl
          have h1' : I P w0 T w1 ρ (bun P (Pos.child i) r.c0 + (innerB P q i st (r.map Gt.kid) + (kidsB P i (r.cs.map Prod.snd) + R))) := by
            refine h1.eq ?_
            rw [bun_inner]
            show innerB P q i st (r.map Gt.kid) + kidsB P i r.kids + R = _
            rw [hkids, kidsB_cons]; abel
          have hrest := here_le_kids (P := P) i (r.cs.map Prod.snd) fun x hx => (hrec x (by rw [hkids]; exact List.mem_cons_of_mem _ hx)).1
          have hall : (bun P q (.inner i st r)).here = (if st.isSome then 1 else 0) + ((bun P (.child i) r.c0).here + (kidsB P i (r.cs.map Prod.snd)).here) := by
            rw [bun_inner, B.here_add, here_inner, kids_sum, hkids, kidsB_cons, B.here_add]
          have hall' : (bun P q (.inner i st r)).stored = (if st.isSome then 1 else 0) + ((bun P (.child i) r.c0).stored + (kidsB P i (r.cs.map Prod.snd)).stored) := by
            rw [bun_inner, B.stored_add, stored_inner, kids_sum, hkids, kidsB_cons, B.stored_add]
          rw [hall, hall', layoutAdd_own st (mkDisk P q.root (r.map Gt.kid).total (r.map Gt.kid).disk), must_some_bind]
          obtain ⟨-, hc1, hc2⟩ := hrec r.c0 (by simp [hkids])
          generalize S + Multiset.map Prod.fst (ownPage st (mkDisk P q.root (r.map Gt.kid).total (r.map Gt.kid).disk) : B K V).2.2.1 = S'
          have b7 := hc2 S' _ _ h1'
          simp only [Once] at b7
          rcases (hc1 S' _ _ h1').cases with ⟨a, w2, e2, rfl, c', ⟨b2, -⟩, b3⟩ | ⟨e, w2, e2, -⟩
          swap
          · rw [bind_err e2]
            rw [e2] at b7
            simp only at b7 ⊢
            omega
          · have b4 := b3.eq (R' := innerB P q i st (r.map Gt.kid) + (kidsB P i ([c'] ++ r.cs.map Prod.snd) + R)) (by
              rw [List.singleton_append, kidsB_cons]; abel)
            obtain ⟨r2, a1, b5, -⟩ := Sim.row (i := i) (st := st) (r := r) (L := [c'] ++ r.cs.map Prod.snd) (.cons b2 (forall₂_sim_refl _))
            have b6 : I P w0 T w2 ρ (bun P q (.inner i st r2) + R) := by
              rw [bun_inner, a1, b5, add_assoc]; exact b4
            have hin2 := b6.isInner
            have elen : r2.cs.length = r.cs.length := by
              have := congrArg (fun r => r.cs.length) b5
              simpa using this
            rw [bind_ok e2, bind_ok (kvLen_run hin2.kv)]
            rw [e2] at b7
            simp only [innerKv_length, List.length_map, elen, Int.toNat_natCast] at b7 ⊢
            have hlo := layoutLoop_once (r.cs.map Prod.snd) [c'] 0 r.cs.length (w := w2) (S := S' + (bun P (.child i) r.c0).2.2.1.map Prod.fst) (by rw [Row.kids_map, hkids]; simp [b2.kid]) rfl (by simp)
              (fun t ht => hrec t (by rw [hkids]; exact List.mem_cons_of_mem _ ht)) b4
            omega
        · simp [odds_odInner] at hz1

/-- `FetchLayoutReport` -/
theorem Rest.layoutAway {g : Gt K V H} {w : World K V} {fuel : Nat} (hr : Rest P w0 T R g w) (hf : H < fuel) :
    (fetchLayoutReport P.cmp P.τ fuel w).2.env.gets + Multiset.card (g.mem.filter fun p => p.2 = false) ≤ w.env.gets + Multiset.card (bun P ⟨none, true⟩ g).2.2.1 := by
  rw [← here_mem (P := P) ⟨none, true⟩ g hr.odds]
  unfold fetchLayoutReport
  rw [bind_ok hr.root]
  have h0 := updateLayoutReport_once (S := 0) g hf hr.I hr.odds hr.clean hr.ord
  rw [← show (fun _ => none : Layout) = layoutOf 0 by funext n; simp [layoutOf]] at h0
  exact h0

/-! ### Dump -/

/-- `Dumps` and what is read. -/
def DumpsOnce (P : Par K) (w0 : World K V) (T : Tot K V) (ρ : Option Id) (cb : DumpCb K V) (i : Id)
    (rec : Id → M K V (List (Line K V) × Option Err)) (t : Gt K V h) : Prop :=
  t.odds = 0 ∧ Dumps P w0 T ρ cb i rec t ∧ ∀ (R : B K V) (w : World K V), I P w0 T w ρ (bun P (.child i) t + R) → Once P (.child i) t w (rec t.id w).2

theorem dumpInnerLoop_once {cb : DumpCb K V} {i : Id} {rec : Id → M K V (List (Line K V) × Option Err)} {d : Nat} {q : Pos} {st : Option Ref} {κ : Row K Kid} :
    ∀ (post done : List (Gt K V h)) (n m : Nat) {w : World K V}, (done ++ post).map Gt.kid = κ.kids → done.length = n + 1 → post.length = m →
      (∀ t ∈ post, DumpsOnce P w0 T ρ cb i rec t) → I P w0 T w ρ (innerB P q i st κ + (kidsB P i (done ++ post) + R)) →
      (dumpLoop cb d false i rec n m w).2.env.gets + (kidsB P i post).here ≤ w.env.gets + (kidsB P i post).stored
  | [], done, n, m, w, _, _, hk, _, hI => by
      simp only [List.length_nil] at hk
      subst hk
      exact Nat.le_refl _
  | t :: post, done, n, m, w, hκ, hd, hk, hc, hI => by
      simp only [List.length_cons] at hk
      subst hk
      have hh : HasKids P (w.node i) κ := by
        have := hI
        rw [innerB, add_assoc, add_assoc] at this
        exact this.cell.hasKids
      have hn : κ.kids[n + 1]? = some t.kid := by rw [← hκ, ← hd]; simp
      have hn2 : ∃ k, κ.cs[n]? = some (k, t.kid) := by
        simp only [Row.kids, List.getElem?_cons_succ, List.getElem?_map, Option.map_eq_some_iff] at hn
        obtain ⟨⟨k, x⟩, h1, h2⟩ := hn
        exact ⟨k, by rw [h1]; simp at h2; rw [h2]⟩
      obtain ⟨k, hn2⟩ := hn2
      have e1 : kvGetByIndex i (n : Int) w = (.ok (some (k, .node t.id)), w) := by
        rw [kvGet_run hh.kv n, at?_nat]; simp [innerKv, hn2, Gt.kid]
      have hrest := here_le_kids (P := P) i post fun x hx => (hc x (by simp [hx])).1
      obtain ⟨hz, hc1, hc2⟩ := hc t (by simp)
      have hle := here_le (P := P) (.child i) t hz
      rw [dumpLoop, bind_ok e1, kidsB_cons, B.here_add, B.stored_add]
      simp only [deref_some_bind, Bool.false_eq_true, if_false]
      by_cases h1 : cb.keyFails k = true
      · rw [if_pos h1]
        show w.env.gets + _ ≤ _
        omega
      rw [if_neg h1]
      show ((asNode (.node t.id) >>= _) w).2.env.gets + _ ≤ _
      rw [asNode, pure_bind_run]
      have hI1 := hI.eq (R' := bun P (Pos.child i) t + (innerB P q i st κ + (kidsB P i (done ++ post) + R))) (by
        simp only [kidsB_append, kidsB_cons]; abel)
      have hsp : ∀ (g : Gt K V h) (post' : List (Gt K V h)), innerB P q i st κ + (kidsB P i (done ++ g :: post') + R) =
          bun P (Pos.child i) g + (innerB P q i st κ + (kidsB P i (done ++ post') + R)) := by
        intro g post'
        simp only [kidsB_append, kidsB_cons]; abel
      have h4 := hc2 _ w hI1
      simp only [Once] at h4
      rcases (hc1 _ w hI1).cases with ⟨a, w1, e2, -, g, h2, h3⟩ | ⟨e, w1, e2, hno⟩
      · rw [bind_ok e2]
        rw [e2] at h4
        rw [← hsp] at h3
        have ih := dumpInnerLoop_once (d := d) post (done ++ [g]) (n + 1) post.length (w := w1) (by rw [← hκ]; simp [h2.kid]) (by simp [hd]) rfl
          (fun t ht => hc t (by simp [ht])) (by simpa using h3)
        rw [bind_dry fun _ => .pure _]
        simp only at h4
        omega
      · exact hno.elim

theorem dumpNode_once {cb : DumpCb K V} : ∀ {h : Nat} {q : Pos} (t : Gt K V h) {w : World K V} {R : B K V} {fuel d : Nat}, h < fuel →
    I P w0 T w ρ (bun P q t + R) → t.odds = 0 → Ord P.toCmp t.erase.seq → Once P q t w (dumpNode P.cmp cb P.τ fuel d t.id w).2
  | h, q, t, w, R, 0, _, hf, _, _, _ => by omega
  | h, q, t, w, R, fuel + 1, d, hf, hI, hz, ho => by
      have htree := (hI.head hz).2.2.1
      have hen := ensure_once hI ho hz
      have e0 : validateLoad P.cmp t.id w = (if !(w.node t.id).loaded then loadNode P.cmp P.τ t.id else pure ()) w := by
        rw [validateLoad, getN_bind, htree]
      rw [← e0] at hen
      unfold dumpNode
      rcases hen.cases with ⟨a, w1, e1, g, gl, hs, h1, hon⟩ | ⟨e, w1, e1, h1⟩
      swap
      · rw [bind_ok (attempt_err e1)]; exact h1
      rw [bind_ok (attempt_ok e1)]
      refine hon _ ?_
      have hz1 : g.odds = 0 := by rw [hs.odds]; exact hz
      have hid := hs.id
      rw [← hs.erase] at ho
      obtain ⟨x, hx, -⟩ := dumpFields_run (P := P) d t.id w1
      simp only
      rw [bind_ok hx, ← hid, getN_bind]
      clear hon hen e0 hI hz htree hs e1 hx hid
      cases h with
      | zero =>
        rcases g.cases0 with ⟨i, y, rfl⟩ | ⟨i, st, l, rfl⟩ | ⟨i, o, l, rfl⟩
        · cases gl
        · have hl := h1.isLeaf
          have hle := here_le (P := P) q _ hz1
          simp only [id_leaf, hl.leaf, dumpLeft, if_true, pure_bind_run]
          rw [bind_ok (kvLen_run hl.kv), leafKv_length, Int.toNat_natCast]
          obtain ⟨r, e1, -⟩ := dumpLeafLoop_run (P := P) (w0 := w0) (cb := cb) (d := d) (rec := dumpNode P.cmp cb P.τ fuel (d + 1)) hl.kv l.length 0 (by omega)
          rw [bind_ok e1]
          show w1.env.gets + _ ≤ _
          omega
        · simp at hz1
      | succ h =>
        rcases g.casesS with ⟨i, y, rfl⟩ | ⟨i, st, r, rfl⟩ | ⟨i, o, l, rfl⟩
        · cases gl
        · have hin := h1.isInner
          rw [erase_inner] at ho
          simp only [id_inner, hin.leaf, hin.left, dumpLeft, Bool.false_eq_true, if_false, bind_assoc_run]
          have hrec : ∀ c ∈ r.kids, DumpsOnce P w0 T ρ cb i (dumpNode P.cmp cb P.τ fuel (d + 1)) c := by
            intro c hc
            have hok : Ord P.toCmp c.erase.seq := ho.kid (by rw [Row.kids_map]; exact List.mem_map_of_mem hc)
            exact ⟨odds_kid hz1 hc, fun R' w' hI' => dumpNode_run c (by omega) hI' (odds_kid hz1 hc) hok, fun R' w' hI' => dumpNode_once c (by omega) hI' (odds_kid hz1 hc) hok⟩
          have hkids : r.kids = r.c0 :: r.cs.map Prod.snd := rfl
          have h1' : I P w0 T w1 ρ (bun P (Pos.child i) r.c0 + (innerB P q i st (r.map Gt.kid) + (kidsB P i (r.cs.map Prod.snd) + R))) := by
            refine h1.eq ?_
            rw [bun_inner]
            show innerB P q i st (r.map Gt.kid) + kidsB P i r.kids + R = _
            rw [hkids, kidsB_cons]; abel
          have hall : (bun P q (.inner i st r)).here = (if st.isSome then 1 else 0) + ((bun P (.child i) r.c0).here + (kidsB P i (r.cs.map Prod.snd)).here) := by
            rw [bun_inner, B.here_add, here_inner, kids_sum, hkids, kidsB_cons, B.here_add]
          have hall' : (bun P q (.inner i st r)).stored = (if st.isSome then 1 else 0) + ((bun P (.child i) r.c0).stored + (kidsB P i (r.cs.map Prod.snd)).stored) := by
            rw [bun_inner, B.stored_add, stored_inner, kids_sum, hkids, kidsB_cons, B.stored_add]
          simp only [Once]
          rw [hall, hall']
          obtain ⟨-, hc1, hc2⟩ := hrec r.c0 (by simp [hkids])
          have b7 := hc2 _ _ h1'
          simp only [Once] at b7
          rcases (hc1 _ _ h1').cases with ⟨y, w2, e2, -, c', b2, b3⟩ | ⟨e, w2, e2, hno⟩
          swap
          · exact hno.elim
          have b4 := b3.eq (R' := innerB P q i st (r.map Gt.kid) + (kidsB P i ([c'] ++ r.cs.map Prod.snd) + R)) (by
            rw [List.singleton_append, kidsB_cons]; abel)
          obtain ⟨r2, a1, b5, -⟩ := Sim.row (i := i) (st := st) (r := r) (L := [c'] ++ r.cs.map Prod.snd) (.cons b2 (forall₂_sim_refl _))
          have b6 : I P w0 T w2 ρ (bun P q (.inner i st r2) + R) := by
            rw [bun_inner, a1, b5, add_assoc]; exact b4
          have hin2 := b6.isInner
          have elen : r2.cs.length = r.cs.length := by
            have := congrArg (fun r => r.cs.length) b5
            simpa using this
          rw [bind_ok e2]
          simp only [pure_bind_run]
          rw [bind_ok (kvLen_run hin2.kv)]
          rw [e2] at b7
          simp only [innerKv_length, List.length_map, elen, Int.toNat_natCast] at b7 ⊢
          have hlo := dumpInnerLoop_once (d := d) (r.cs.map Prod.snd) [c'] 0 r.cs.length (w := w2) (by rw [Row.kids_map, hkids]; simp [b2.kid]) rfl (by simp)
            (fun t ht => hrec t (by rw [hkids]; exact List.mem_cons_of_mem _ ht)) b4
          rw [bind_dry fun _ => .pure _]
          omega
        · simp [odds_odInner] at hz1

/-- `Dump` -/
theorem Rest.dumpAway {cb : DumpCb K V} {g : Gt K V H} {w : World K V} {fuel : Nat} (hr : Rest P w0 T R g w) (hf : H < fuel) :
    (dump P.cmp cb P.τ fuel w).2.env.gets + Multiset.card (g.mem.filter fun p => p.2 = false) ≤ w.env.gets + Multiset.card (bun P ⟨none, true⟩ g).2.2.1 := by
  rw [← here_mem (P := P) ⟨none, true⟩ g hr.odds]
  unfold dump
  rw [getT_bind, bind_ok hr.root, bind_ok (show dumpHead (w.trees P.τ).cached w = _ from rfl), bind_dry fun _ => .pure _]
  exact dumpNode_once g hf hr.I hr.odds hr.ord

end
end SM.BT

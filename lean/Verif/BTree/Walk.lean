import Verif.BTree.Delete

/-! Going through all children of a node; Validate. -/

namespace SM.BT

open Spec (at? below above find has rejects Agrees AgreesE Refused stepE Op Ans)

variable {K V : Type}

section
variable {P : Par K} {w0 : World K V} {T : Tot K V} {w : World K V} {ρ : Option Id}
  {R R' : B K V} {c c' : Cell K V} {h H : Nat}

theorem Row.refill {α β : Type} (r : Row K α) {L : List β} (hL : L.length = r.kids.length) :
    ∃ r' : Row K β, r'.kids = L ∧ r'.cs.map Prod.fst = r.cs.map Prod.fst := by
  cases L with
  | nil => simp at hL
  | cons a L =>
    simp only [List.length_cons, Row.length_kids, Nat.add_right_cancel_iff] at hL
    refine ⟨⟨a, (r.cs.map Prod.fst).zip L⟩, ?_, ?_⟩
    · simp only [Row.kids, List.cons.injEq, true_and]
      rw [List.map_snd_zip]; simp [hL]
    · simp only
      rw [List.map_fst_zip]; simp [hL]

theorem list_fs {α β : Type} : ∀ {a b : List (α × β)}, a.map Prod.fst = b.map Prod.fst → a.map Prod.snd = b.map Prod.snd → a = b
  | [], [], _, _ => rfl
  | [], _ :: _, h, _ => by simp at h
  | _ :: _, [], h, _ => by simp at h
  | x :: a, y :: b, h, g => by
      simp only [List.map_cons, List.cons.injEq] at h g
      rw [list_fs h.2 g.2, Prod.ext h.1 g.1]

theorem Row.ext' {α : Type} {r s : Row K α} (h1 : r.kids = s.kids) (h2 : r.cs.map Prod.fst = s.cs.map Prod.fst) : r = s := by
  rcases r with ⟨a, l⟩; rcases s with ⟨b, m⟩
  simp only [Row.kids, List.cons.injEq] at h1
  obtain ⟨rfl, h1⟩ := h1
  have e : l = m := list_fs h2 h1
  rw [e]

theorem Row.keys_map {α β : Type} (f : α → β) (r : Row K α) : (r.map f).cs.map Prod.fst = r.cs.map Prod.fst := by
  simp [Function.comp_def]

/-- A row with other children in the same places. -/
theorem Row.refill_map {α β : Type} (f : β → α) (r : Row K α) {L : List β} (hL : L.map f = r.kids) :
    ∃ r' : Row K β, r'.kids = L ∧ r'.map f = r := by
  obtain ⟨r', h1, h2⟩ := r.refill (L := L) (by rw [← hL]; simp)
  exact ⟨r', h1, Row.ext' (by rw [Row.kids_map, h1, hL]) (by rw [Row.keys_map, h2])⟩

/-- The fields of a non-leaf that tell its children. -/
structure HasKids (P : Par K) (n : NodeS K V) (κ : Row K Kid) : Prop where
  leaf : n.leaf = false
  left : n.left = some κ.c0.id
  kv : KvIs P.toCmp n.kv (innerKv (κ.cs.map fun p => (p.1, p.2.id)))

theorem CellOK.hasKids {q : Pos} {i : Id} {st : Option Ref} {κ : Row K Kid} (h : CellOK w (mkCell P q i st κ.body)) :
    HasKids P (w.node i) κ := by
  have hb := h.body
  simp only [mkCell, Row.body] at hb
  exact ⟨hb.2.1, hb.2.2.2.1, hb.2.2.2.2.1⟩

theorem forChildren_run {κ : Row K Kid} {J : Nat → World K V → Prop} {E : Err → World K V → Prop} {i : Id} {f : Id → M K V Unit} (line : Nat)
    (hJ : ∀ n w, J n w → HasKids P (w.node i) κ)
    (hf : ∀ n k (_ : κ.kids[n]? = some k) w, J n w → Res (f k.id w) (fun _ w' => J (n + 1) w') E) :
    ∀ (k n : Nat) {w : World K V}, n + k = κ.cs.length → J (n + 1) w →
      Res (forChildren line i f n k w) (fun _ w' => J (n + k + 1) w') E
  | 0, n, w, _, h => Res.ok rfl h
  | k + 1, n, w, hk, h => by
      have hn : n < κ.cs.length := by omega
      have e1 := kvChildOk_run (hJ _ _ h).kv (n := n) (k := κ.cs[n].1) (c := κ.cs[n].2.id) (by simp [hn]) line
      rw [forChildren, bind_ok e1]
      refine (hf (n + 1) κ.cs[n].2 (by simp [Row.kids, hn]) w h).bind (fun e w h => h) fun _ w' h' => ?_
      have := forChildren_run line hJ hf k (n + 1) (w := w') (by omega) h'
      rw [show n + 1 + k = n + (k + 1) by omega] at this
      exact this

theorem eachChild_run {κ : Row K Kid} {J : Nat → World K V → Prop} {E : Err → World K V → Prop} {i : Id} {f : Id → M K V Unit} (line : Nat)
    (hJ : ∀ n w, J n w → HasKids P (w.node i) κ)
    (hf : ∀ n k (_ : κ.kids[n]? = some k) w, J n w → Res (f k.id w) (fun _ w' => J (n + 1) w') E) (h : J 0 w) :
    Res (eachChild line i f w) (fun _ w' => J κ.kids.length w') E := by
  have hk := hJ _ _ h
  unfold eachChild
  simp only [getN_bind, hk.leaf, hk.left, Bool.false_eq_true, if_false]
  refine (hf 0 κ.c0 rfl w h).bind (fun e w h => h) fun _ w' h' => ?_
  rw [bind_ok (kvLen_run (hJ _ _ h').kv)]
  have := forChildren_run line hJ hf κ.cs.length 0 (w := w') (by omega) h'
  simpa [innerKv_length] using this

/-- Each child `t` is turned into something that takes up `b a`. -/
theorem eachChild_walk2 {A : B K V → World K V → Prop} {A' : Err → B K V → World K V → Prop} (hA : ∀ {c R w}, A (cellB c + R) w → CellOK w c) {κ : Row K Kid} {α β : Type}
    (b : α → B K V) (be : β → B K V) {Q : Gt K V h → α → Prop} {E : Err → Gt K V h → β → Prop} {q : Pos} {st : Option Ref} {i : Id}
    {L : List (Gt K V h)} (hL : L.map Gt.kid = κ.kids) {f : Id → M K V Unit} (line : Nat)
    (hf : ∀ t ∈ L, ∀ R w, A (bun P (.child i) t + R) w →
      Res (f t.id w) (fun _ w' => ∃ a, Q t a ∧ A (b a + R) w') (fun e w' => ∃ a, E e t a ∧ A' e (be a + R) w'))
    (hw : A (innerB P q i st κ + (kidsB P i L + R)) w) :
    Res (eachChild line i f w)
      (fun _ w' => ∃ as, List.Forall₂ Q L as ∧ A (innerB P q i st κ + ((as.map b).sum + R)) w')
      (fun e w' => ∃ pre t post as a, L = pre ++ t :: post ∧ List.Forall₂ Q pre as ∧ E e t a ∧
        A' e (innerB P q i st κ + ((as.map b).sum + be a + kidsB P i post + R)) w') := by
  refine (eachChild_run (P := P) (κ := κ) (J := fun n w => ∃ as, List.Forall₂ Q (L.take n) as ∧
    A (innerB P q i st κ + ((as.map b).sum + kidsB P i (L.drop n) + R)) w) line ?_ ?_ ?_).mono ?_ (fun e w h => h)
  · rintro n w ⟨as, -, h⟩
    rw [innerB, add_assoc, add_assoc] at h
    exact (hA h).hasKids
  · rintro n k hk w ⟨as, h1, h2⟩
    rw [← hL, List.getElem?_map, Option.map_eq_some_iff] at hk
    obtain ⟨t, ht, rfl⟩ := hk
    have hd : L.drop n = t :: L.drop (n + 1) := by
      have := List.getElem?_eq_some_iff.1 ht
      obtain ⟨hlt, e⟩ := this
      rw [← e]; exact List.drop_eq_getElem_cons hlt
    have hsp : L = L.take n ++ t :: L.drop (n + 1) := by rw [← hd, List.take_append_drop]
    have htk : L.take (n + 1) = L.take n ++ [t] := by
      rw [List.take_add_one, ht]; rfl
    rw [hd, kidsB_cons] at h2
    have h3 := hf t (List.mem_of_getElem? ht) (innerB P q i st κ + ((as.map b).sum + kidsB P i (L.drop (n + 1)) + R)) w (by
      rw [show bun P (Pos.child i) t + (innerB P q i st κ + ((as.map b).sum + kidsB P i (L.drop (n + 1)) + R)) =
        innerB P q i st κ + ((as.map b).sum + (bun P (Pos.child i) t + kidsB P i (L.drop (n + 1))) + R) by abel]
      exact h2)
    refine h3.mono ?_ ?_
    · rintro _ w' ⟨a, ha, hw'⟩
      refine ⟨as ++ [a], ?_, ?_⟩
      · rw [htk]; exact List.rel_append h1 (.cons ha .nil)
      · rw [List.map_append, List.sum_append, List.map_cons, List.map_nil, List.sum_cons, List.sum_nil, add_zero]
        rw [show innerB P q i st κ + ((as.map b).sum + b a + kidsB P i (L.drop (n + 1)) + R) =
          b a + (innerB P q i st κ + ((as.map b).sum + kidsB P i (L.drop (n + 1)) + R)) by abel]
        exact hw'
    · rintro e w' ⟨a, ha, hw'⟩
      refine ⟨L.take n, t, L.drop (n + 1), as, a, hsp, h1, ha, ?_⟩
      rw [show innerB P q i st κ + ((as.map b).sum + be a + kidsB P i (L.drop (n + 1)) + R) =
          be a + (innerB P q i st κ + ((as.map b).sum + kidsB P i (L.drop (n + 1)) + R)) by abel]
      exact hw'
  · exact ⟨[], by simp, by simpa using hw⟩
  · rintro _ w' ⟨as, h1, h2⟩
    have e : κ.kids.length = L.length := by rw [← hL]; simp
    rw [e] at h1 h2
    refine ⟨as, by simpa using h1, by simpa using h2⟩

theorem eachChild_walk {A : B K V → World K V → Prop} (hA : ∀ {c R w}, A (cellB c + R) w → CellOK w c) {κ : Row K Kid} {α β : Type}
    (b : α → B K V) (be : β → B K V) {Q : Gt K V h → α → Prop} {E : Err → Gt K V h → β → Prop} {q : Pos} {st : Option Ref} {i : Id}
    {L : List (Gt K V h)} (hL : L.map Gt.kid = κ.kids) {f : Id → M K V Unit} (line : Nat)
    (hf : ∀ t ∈ L, ∀ R w, A (bun P (.child i) t + R) w →
      Res (f t.id w) (fun _ w' => ∃ a, Q t a ∧ A (b a + R) w') (fun e w' => ∃ a, E e t a ∧ A (be a + R) w'))
    (hw : A (innerB P q i st κ + (kidsB P i L + R)) w) :
    Res (eachChild line i f w)
      (fun _ w' => ∃ as, List.Forall₂ Q L as ∧ A (innerB P q i st κ + ((as.map b).sum + R)) w')
      (fun e w' => ∃ pre t post as a, L = pre ++ t :: post ∧ List.Forall₂ Q pre as ∧ E e t a ∧
        A (innerB P q i st κ + ((as.map b).sum + be a + kidsB P i post + R)) w') :=
  eachChild_walk2 (A' := fun _ => A) hA b be hL line hf hw

/-- The struct at the top of a tree. -/
theorem bun_head (q : Pos) (t : Gt K V h) (hz : t.odds = 0) :
    ∃ (b : Body K V) (R' : B K V), bun P q t = cellB (mkCell P q t.id t.st b) + R' := by
  cases h with
  | zero =>
    rcases t.cases0 with ⟨i, d, rfl⟩ | ⟨i, st, l, rfl⟩ | ⟨i, o, l, rfl⟩
    · exact ⟨_, _, by rw [bun_unl, add_assoc]; rfl⟩
    · exact ⟨_, _, by rw [bun_leaf, leafB, add_assoc]; rfl⟩
    · simp at hz
  | succ h =>
    rcases t.casesS with ⟨i, d, rfl⟩ | ⟨i, st, l, rfl⟩ | ⟨i, o, l, rfl⟩
    · exact ⟨_, _, by rw [bun_unl, add_assoc]; rfl⟩
    · exact ⟨_, _, by rw [bun_inner, innerB, add_assoc, add_assoc]; rfl⟩
    · simp [odds_odInner] at hz

theorem I.head {q : Pos} {t : Gt K V h} (hz : t.odds = 0) (hI : I P w0 T w ρ (bun P q t + R)) :
    (w.node t.id).parent = q.parent ∧ (w.node t.id).root = q.root ∧ (w.node t.id).tree = P.τ ∧
    (w.node t.id).ref = refOf t.st ∧ (w.node t.id).dirty = t.st.isNone := by
  obtain ⟨b, R', e⟩ := bun_head (P := P) q t hz
  rw [e, add_assoc] at hI
  have := hI.cell
  exact ⟨this.parent, this.root, this.tree, this.ref, this.dirty⟩

/-- A run over the children that leaves the same tree. -/
theorem Sim.row {i : Id} {st : Option Ref} {r : Row K (Gt K V h)} {L : List (Gt K V h)} (hL : List.Forall₂ (Sim P) r.kids L) :
    ∃ r' : Row K (Gt K V h), r'.kids = L ∧ r'.map Gt.kid = r.map Gt.kid ∧ Sim P (.inner i st r) (.inner i st r') := by
  have e1 : L.map Gt.kid = (r.map Gt.kid).kids := by
    rw [Row.kids_map]
    generalize r.kids = X at hL ⊢
    induction hL with
    | nil => rfl
    | cons h _ ih => simp [h.kid, ih]
  have e2 : L.map Gt.erase = r.kids.map Gt.erase := by
    clear e1
    generalize r.kids = X at hL ⊢
    induction hL with
    | nil => rfl
    | cons h _ ih => simp [h.erase, ih]
  have e3 : L.map Gt.odds = r.kids.map Gt.odds := by
    clear e1 e2
    generalize r.kids = X at hL ⊢
    induction hL with
    | nil => rfl
    | cons h _ ih => simp [h.odds, ih]
  have e4 : ∀ q, (L.map (bun P q)).sum.2.2.1 = (r.kids.map (bun P q)).sum.2.2.1 := by
    intro q; clear e1 e2 e3
    generalize r.kids = X at hL ⊢
    induction hL with
    | nil => rfl
    | cons h _ ih => simp [h.pages, ih]
  have e5 : (∀ c ∈ r.kids, c.Clean ∧ (st.isSome → c.st.isSome)) → ∀ c ∈ L, c.Clean ∧ (st.isSome → c.st.isSome) := by
    clear e1 e2 e3 e4
    generalize r.kids = X at hL ⊢
    induction hL with
    | nil => simp
    | cons h _ ih =>
      simp only [List.mem_cons, forall_eq_or_imp]
      rintro ⟨h1, h2⟩
      exact ⟨⟨h.clean h1.1, by rw [h.st]; exact h1.2⟩, ih h2⟩
  obtain ⟨r', h1, h2⟩ := (r.map Gt.kid).refill_map Gt.kid e1
  refine ⟨r', h1, h2, rfl, rfl, ?_, ?_, ?_, ?_⟩
  · rw [erase_inner, erase_inner]
    congr 1
    refine Row.ext' ?_ ?_
    · rw [Row.kids_map, Row.kids_map, h1, e2]
    · rw [Row.keys_map, Row.keys_map, ← Row.keys_map Gt.kid r, ← h2, Row.keys_map]
  · rw [Clean_inner, Clean_inner, h1]; exact e5
  · rw [odds_inner, odds_inner, h1, e3]
  · intro q
    rw [bun_inner, bun_inner, h2, h1]
    simp only [Prod.snd_add, Prod.fst_add, e4]

theorem ensure_run {q : Pos} {t : Gt K V h} {cmp : Compare K} (hc : cmp = P.cmp) (hI : I P w0 T w ρ (bun P q t + R)) (ho : Ord P.toCmp t.erase.seq) :
    Res ((if !(w.node t.id).loaded then loadNode cmp P.τ t.id else pure ()) w)
      (fun _ w' => ∃ g : Gt K V h, g.ld = true ∧ Sim P t g ∧ I P w0 T w' ρ (bun P q g + R))
      (fun e w' => Faulty w0 e ∧ I P w0 T w' ρ (bun P q t + R)) := by
  subst hc
  rw [hI.loaded]
  cases hl : t.ld with
  | true => exact Res.ok rfl ⟨t, hl, .refl t, hI⟩
  | false =>
    obtain ⟨i, d, rfl⟩ : ∃ i d, t = .unl i d := by
      cases t with
      | unl i d => exact ⟨i, d, rfl⟩
      | ld i st x => cases hl
      | od i o x => cases hl
    rw [erase_unl] at ho
    refine (load_run hI ho).mono ?_ (fun e w h => h)
    rintro _ w2 ⟨g, g1, g2, g3, g4, g5, g6, h2⟩
    refine ⟨g, g1, ⟨g2, g3, by rw [g4, erase_unl], fun _ => g5.1, by rw [g5.2, odds_unl], fun q => ?_⟩, h2⟩
    rw [g6, bun_unl]; simp

/-! ### Validate -/


/-! ### Validate -/

theorem valid_true {line : Nat} {c : Bool} (hc : c = true) (w : World K V) : valid line c w = (.ok (), w) := by
  subst hc; rfl

theorem kvValidate_run {C : Cmp K} {i : Id} {l : List (K × Val V)} (hk : KvIs C (w.node i).kv l) : kvValidate i w = (.ok (), w) := by
  obtain ⟨t, h1, h2, -⟩ := hk
  rw [kvValidate, bind_ok (kvOf_run h1), LLRB.Tree.validate_none h2.lens]
  rfl

/-- What checking a child does. -/
def Checks (P : Par K) (w0 : World K V) (T : Tot K V) (ρ : Option Id) (i : Id) (rec : Id → M K V Unit) (t : Gt K V h) : Prop :=
  ∀ (R : B K V) (w : World K V), I P w0 T w ρ (bun P (.child i) t + R) →
    Res (rec t.id w) (fun _ w' => ∃ g, Sim P t g ∧ I P w0 T w' ρ (bun P (.child i) g + R))
      (fun e w' => Faulty w0 e ∧ ∃ g, Sim P t g ∧ I P w0 T w' ρ (bun P (.child i) g + R))

theorem validateChild_run {i : Id} {rec : Id → M K V Unit} {t : Gt K V h} (line : Nat) (hc : Checks P w0 T ρ i rec t) (hz : t.odds = 0)
    (hI : I P w0 T w ρ (bun P (.child i) t + R)) :
    Res (validateChild line i rec t.id w)
      (fun a w' => a = t.cnt ∧ ∃ g, Sim P t g ∧ I P w0 T w' ρ (bun P (.child i) g + R))
      (fun e w' => Faulty w0 e ∧ ∃ g, Sim P t g ∧ I P w0 T w' ρ (bun P (.child i) g + R)) := by
  unfold validateChild
  rw [getN_bind, (hI.head hz).1, bind_ok (valid_true (by simp [Pos.child]) w)]
  refine (hc R w hI).bind (fun e w h => h) ?_
  rintro _ w' ⟨g, h1, h2⟩
  rw [getN_bind]
  have := h2.items
  rw [h1.id, h1.cnt] at this
  exact Res.ok rfl ⟨this, g, h1, h2⟩

theorem forall₂_sim_refl (L : List (Gt K V h)) : List.Forall₂ (Sim P) L L := by
  induction L with
  | nil => exact .nil
  | cons t L ih => exact .cons (.refl t) ih

theorem validateLoop_run {i : Id} {rec : Id → M K V Unit} {q : Pos} {st : Option Ref} {κ : Row K Kid} :
    ∀ (post done : List (Gt K V h)) (n k : Nat) {w : World K V}, (done ++ post).map Gt.kid = κ.kids → done.length = n + 1 → post.length = k →
      (∀ t ∈ post, Checks P w0 T ρ i rec t ∧ t.odds = 0) → I P w0 T w ρ (innerB P q i st κ + (kidsB P i (done ++ post) + R)) →
      Res (validateLoop i rec n k w)
        (fun a w' => a = (post.map Gt.cnt).sum ∧ ∃ post', List.Forall₂ (Sim P) post post' ∧
          I P w0 T w' ρ (innerB P q i st κ + (kidsB P i (done ++ post') + R)))
        (fun e w' => Faulty w0 e ∧ ∃ post', List.Forall₂ (Sim P) post post' ∧
          I P w0 T w' ρ (innerB P q i st κ + (kidsB P i (done ++ post') + R)))
  | [], done, n, k, w, _, _, hk, _, hI => by
      simp only [List.length_nil] at hk
      subst hk
      exact Res.ok rfl ⟨rfl, [], .nil, hI⟩
  | t :: post, done, n, k, w, hκ, hd, hk, hc, hI => by
      simp only [List.length_cons] at hk
      subst hk
      have hh : HasKids P (w.node i) κ := by
        have := hI
        rw [innerB, add_assoc, add_assoc] at this
        exact this.cell.hasKids
      have hn : κ.kids[n + 1]? = some t.kid := by rw [← hκ, ← hd]; simp
      have hn2 : ∃ k, κ.cs[n]? = some (k, t.kid) := by
        simp only [Row.kids, List.getElem?_cons_succ, List.getElem?_map, Option.map_eq_some_iff] at hn
        obtain ⟨⟨k, x⟩, h1, h2⟩ := hn
        exact ⟨k, by rw [h1]; simp at h2; rw [h2]⟩
      obtain ⟨k, hn2⟩ := hn2
      have e1 := kvChildOk_run hh.kv (n := n) (k := k) (c := t.id) (by simp [hn2, Gt.kid]) 94
      rw [validateLoop, bind_ok e1]
      have hI1 := hI.eq (R' := bun P (Pos.child i) t + (innerB P q i st κ + (kidsB P i (done ++ post) + R))) (by
        simp only [kidsB_append, kidsB_cons]; abel)
      have hsp : ∀ (g : Gt K V h) (post' : List (Gt K V h)), innerB P q i st κ + (kidsB P i (done ++ g :: post') + R) =
          bun P (Pos.child i) g + (innerB P q i st κ + (kidsB P i (done ++ post') + R)) := by
        intro g post'
        simp only [kidsB_append, kidsB_cons]; abel
      refine (validateChild_run 101 (hc t (by simp)).1 (hc t (by simp)).2 hI1).bind ?_ ?_
      · rintro e w' ⟨h1, g, h2, h3⟩
        exact ⟨h1, g :: post, .cons h2 (forall₂_sim_refl _), by rw [hsp]; exact h3⟩
      · rintro a w' ⟨rfl, g, h2, h3⟩
        rw [← hsp] at h3
        refine (validateLoop_run post (done ++ [g]) (n + 1) post.length (w := w') ?_ (by simp [hd]) rfl
          (fun t ht => hc t (by simp [ht])) (by simpa using h3)).bind ?_ ?_
        · rw [← hκ]; simp [h2.kid]
        · rintro e w'' ⟨h4, post', h5, h6⟩
          exact ⟨h4, g :: post', .cons h2 h5, by simpa using h6⟩
        · rintro b w'' ⟨rfl, post', h5, h6⟩
          exact Res.ok rfl ⟨by simp, g :: post', .cons h2 h5, by simpa using h6⟩

/-- The occupancy that goes with a position. -/
def Pos.Occ (P : Par K) (q : Pos) (p : Pt K V h) : Prop :=
  (q.root = true ∧ p.RootOcc P.min P.max) ∨ (q.root = false ∧ p.Occ P.min P.max)

theorem validateNode_run : ∀ {h : Nat} {q : Pos} (t : Gt K V h) {w : World K V} {R : B K V} {fuel : Nat}, h < fuel →
    I P w0 T w ρ (bun P q t + R) → t.odds = 0 → Ord P.toCmp t.erase.seq → q.Occ P t.erase →
    Res (validateNode P.cmp fuel t.id w) (fun _ w' => ∃ g, Sim P t g ∧ I P w0 T w' ρ (bun P q g + R))
      (fun e w' => Faulty w0 e ∧ ∃ g, Sim P t g ∧ I P w0 T w' ρ (bun P q g + R))
  | h, q, t, w, R, 0, hf, _, _, _, _ => by omega
  | h, q, t, w, R, fuel + 1, hf, hI, hz, ho, hocc => by
      have htree := (hI.head hz).2.2.1
      have hen := ensure_run rfl hI ho
      have e0 : validateLoad P.cmp t.id w = (if !(w.node t.id).loaded then loadNode P.cmp P.τ t.id else pure ()) w := by
        rw [validateLoad, getN_bind, htree]
      rw [← e0] at hen
      unfold validateNode
      refine hen.bind (fun e w h => ⟨h.1, t, .refl t, h.2⟩) ?_
      rintro _ w1 ⟨g, gl, hs, h1⟩
      have hid := hs.id
      have hz1 : g.odds = 0 := by rw [hs.odds]; exact hz
      rw [← hs.erase] at ho hocc
      rw [getN_bind]
      suffices hh : Res ((if (w1.node g.id).leaf then do
            kvValidate g.id
            let num ← kvLen g.id
            valid 38 (num == (w1.node g.id).items)
            let t ← getT (w1.node g.id).tree
            valid 43 ((w1.node g.id).root || num ≥ t.min)
            valid 47 (num ≤ t.max)
          else do
            let a ← (match (w1.node g.id).left with
              | none => pure 0
              | some l => validateChild 55 g.id (validateNode P.cmp fuel) l)
            kvValidate g.id
            let num ← kvLen g.id
            let t ← getT (w1.node g.id).tree
            valid 79 ((w1.node g.id).root || num ≥ t.min)
            valid 83 (num ≤ t.max)
            let b ← validateLoop g.id (validateNode P.cmp fuel) 0 num.toNat
            let childItems := a + b
            let n ← getN g.id
            valid 114 (childItems == n.items)
            match n.psRoot with
            | none => M.throw (.invalid 119)
            | some r => do
                let p ← getP r
                valid 124 p.parent.isNone
                valid 129 (childItems == p.items)
                validatePrefixSum (num.toNat + 1) r : M K V Unit) w1)
          (fun _ w' => ∃ g', Sim P g g' ∧ I P w0 T w' ρ (bun P q g' + R))
          (fun e w' => Faulty w0 e ∧ ∃ g', Sim P g g' ∧ I P w0 T w' ρ (bun P q g' + R)) by
        rw [hid] at hh
        exact hh.mono (fun _ _ ⟨g', a, b⟩ => ⟨g', hs.trans a, b⟩) (fun _ _ ⟨a, g', b, c⟩ => ⟨a, g', hs.trans b, c⟩)
      clear hen e0 hI hz htree hid hs
      have hmin := h1.min; have hmax := h1.max
      cases h with
      | zero =>
        rcases g.cases0 with ⟨i, d, rfl⟩ | ⟨i, st, l, rfl⟩ | ⟨i, o, l, rfl⟩
        · cases gl
        · have hl := h1.isLeaf
          rw [show (w1.node (Gt.leaf i st l).id).leaf = true from hl.leaf, if_pos rfl]
          simp only [id_leaf, hl.items, hl.tree, hl.root]
          rw [bind_ok (kvValidate_run hl.kv), bind_ok (kvLen_run hl.kv), leafKv_length]
          rw [bind_ok (valid_true (by simp) w1), getT_bind]
          rw [erase_leaf] at hocc
          have h3 : l.length ≤ P.max ∧ (q.root = false → P.min ≤ l.length) := by
            rcases hocc with ⟨a, b⟩ | ⟨a, b⟩
            · rw [rootOcc_leaf] at b; simp [a, b]
            · rw [occ_leaf] at b; exact ⟨b.2, fun _ => b.1⟩
          rw [bind_ok (valid_true (by
            rw [hmin]
            cases hq : q.root with
            | true => rfl
            | false => have := h3.2 hq; simp; omega) w1)]
          exact Res.ok (valid_true (by rw [hmax]; simp; omega) w1) ⟨_, .refl _, h1⟩
        · simp at hz1
      | succ h =>
        rcases g.casesS with ⟨i, d, rfl⟩ | ⟨i, st, r, rfl⟩ | ⟨i, o, l, rfl⟩
        · cases gl
        · have hin := h1.isInner
          rw [show (w1.node (Gt.inner i st r).id).leaf = false from hin.leaf, if_neg (by simp)]
          simp only [id_inner, hin.left, hin.tree, hin.root]
          rw [erase_inner] at hocc ho
          have h3 : r.cs.length ≤ P.max ∧ (q.root = false → P.min ≤ r.cs.length) ∧ ∀ c ∈ r.kids, c.erase.Occ P.min P.max := by
            rcases hocc with ⟨a, b⟩ | ⟨a, b⟩
            · rw [rootOcc_inner] at b
              simp only [Row.map_cs, List.length_map, Row.kids_map, List.mem_map, forall_exists_index, and_imp,
                forall_apply_eq_imp_iff₂] at b
              exact ⟨b.1.2, by simp [a], b.2⟩
            · rw [occ_inner] at b
              simp only [Row.map_cs, List.length_map, Row.kids_map, List.mem_map, forall_exists_index, and_imp,
                forall_apply_eq_imp_iff₂] at b
              exact ⟨b.1.2, fun _ => b.1.1, b.2⟩
          have hrec : ∀ c ∈ r.kids, Checks P w0 T ρ i (validateNode P.cmp fuel) c ∧ c.odds = 0 := by
            intro c hc
            have hcz := odds_kid hz1 hc
            refine ⟨fun R' w' hI' => ?_, hcz⟩
            exact validateNode_run c (by omega) hI' hcz (ho.kid (by rw [Row.kids_map]; exact List.mem_map_of_mem hc)) (.inr ⟨rfl, h3.2.2 c hc⟩)
          have hkids : r.kids = r.c0 :: r.cs.map Prod.snd := rfl
          have h1' : I P w0 T w1 ρ (bun P (Pos.child i) r.c0 + (innerB P q i st (r.map Gt.kid) + (kidsB P i (r.cs.map Prod.snd) + R))) := by
            refine h1.eq ?_
            rw [bun_inner]
            show innerB P q i st (r.map Gt.kid) + kidsB P i r.kids + R = _
            rw [hkids, kidsB_cons]; abel
          have hfin : ∀ {w' : World K V} {L : List (Gt K V h)}, List.Forall₂ (Sim P) r.kids L →
              I P w0 T w' ρ (innerB P q i st (r.map Gt.kid) + (kidsB P i L + R)) →
              ∃ r', r'.map Gt.kid = r.map Gt.kid ∧ Sim P (.inner i st r) (.inner i st r') ∧ I P w0 T w' ρ (bun P q (.inner i st r') + R) := by
            intro w' L hL hI'
            obtain ⟨r', a1, a2, a3⟩ := Sim.row (i := i) (st := st) hL
            refine ⟨r', a2, a3, ?_⟩
            rw [bun_inner, a1, a2, add_assoc]; exact hI'
          refine (validateChild_run 55 (hrec r.c0 (by simp [hkids])).1 (hrec r.c0 (by simp [hkids])).2 h1').bind ?_ ?_
          · rintro e w' ⟨b1, c', b2, b3⟩
            have b4 := b3.eq (R' := innerB P q i st (r.map Gt.kid) + (kidsB P i (c' :: r.cs.map Prod.snd) + R)) (by rw [kidsB_cons]; abel)
            obtain ⟨r', -, b5, b6⟩ := hfin (L := c' :: r.cs.map Prod.snd) (.cons b2 (forall₂_sim_refl _)) b4
            exact ⟨b1, _, b5, b6⟩
          · rintro a w2 ⟨rfl, c', b2, b3⟩
            have b4 := b3.eq (R' := innerB P q i st (r.map Gt.kid) + (kidsB P i ([c'] ++ r.cs.map Prod.snd) + R)) (by
              rw [List.singleton_append, kidsB_cons]; abel)
            obtain ⟨r2, b5, -, b6⟩ := hfin (L := [c'] ++ r.cs.map Prod.snd) (.cons b2 (forall₂_sim_refl _)) b4
            have hin2 := b6.isInner
            have elen : r2.cs.length = r.cs.length := by
              have := congrArg (fun r => r.cs.length) b5
              simpa using this
            rw [bind_ok (kvValidate_run hin2.kv), bind_ok (kvLen_run hin2.kv), getT_bind, b6.min, b6.max]
            simp only [innerKv_length, List.length_map, elen, Int.toNat_natCast]
            rw [bind_ok (valid_true (by
              cases hq : q.root with
              | true => rfl
              | false => have := h3.2.1 hq; simp; omega) w2)]
            rw [bind_ok (valid_true (by simp; omega) w2)]
            refine (validateLoop_run (r.cs.map Prod.snd) [c'] 0 r.cs.length (w := w2) ?_ rfl (by simp)
              (fun t ht => hrec t (by rw [hkids]; exact List.mem_cons_of_mem _ ht)) b4).bind ?_ ?_
            · rw [Row.kids_map, hkids]; simp [b2.kid]
            · rintro e w' ⟨d1, post', d2, d3⟩
              obtain ⟨r', -, b5, b6⟩ := hfin (L := [c'] ++ post') (.cons b2 d2) d3
              exact ⟨d1, _, b5, b6⟩
            · rintro b w3 ⟨rfl, post', d2, d3⟩
              obtain ⟨r3, d4, d5, d6⟩ := hfin (L := [c'] ++ post') (.cons b2 d2) d3
              have hin3 := d6.isInner
              have elen3 : r3.cs.length = r.cs.length := by
                have := congrArg (fun r => r.cs.length) d4
                simpa using this
              have ecnt : (r3.kids.map Gt.cnt).sum = r.c0.cnt + ((r.cs.map Prod.snd).map Gt.cnt).sum := by
                have := congrArg Row.kids d4
                rw [Row.kids_map, Row.kids_map] at this
                have := congrArg (fun l => (l.map Kid.cnt).sum) this
                simp only [List.map_map, Function.comp_def, Gt.kid] at this
                rw [this, hkids]; simp [Function.comp_def]
              rw [getN_bind, hin3.items, ecnt, bind_ok (valid_true (by simp) w3)]
              obtain ⟨b, p1, p2, p3, p4⟩ := hin3.ps
              obtain ⟨x, p5, -⟩ := PT.root?_of_ne (b := b) (by rw [p1]; simp [Row.kids, idxFrom])
              rw [p3, p5]
              simp only [getP_bind]
              have hx : (w3.ps x).parent = none ∧ (w3.ps x).items = b.sum := by
                cases b with
                | nil => simp [PT.root?] at p5
                | node l j c y r =>
                  simp only [PT.root?, Option.some.injEq] at p5
                  subst p5
                  rw [p2.1]
                  simp [PT.sum]
              have hsum : b.sum = r.c0.cnt + ((r.cs.map Prod.snd).map Gt.cnt).sum := by
                rw [← ecnt, PT.sum_tot, p1, idxFrom_tot, total]; simp [Function.comp_def]
              rw [hx.1, hx.2, hsum, bind_ok (valid_true (by simp) w3), bind_ok (valid_true (by simp) w3)]
              refine Res.ok (validatePrefixSum_run p2 ?_ p4 p5 ?_) ⟨_, d5, d6⟩
              · intro z hz
                rw [p1] at hz
                have := mem_idxFrom hz
                simp only [List.mem_map, Prod.mk.injEq] at this
                obtain ⟨t, t1, t2, t3⟩ := this
                rw [← t2, ← t3]
                exact hin3.counts t t1
              · rw [p1, idxFrom_length]; simp [elen3]
        · simp [odds_odInner] at hz1

theorem validate_run {g : Gt K V H} (hr : Rest P w0 T R g w) {fuel : Nat} (hf : H < fuel) :
    ReadPost P w0 T R g .validate (step P.cmp P.τ fuel .validate w) := by
  simp only [step, validate, bind_assoc_run, ReadPost, stepE, Op.key?]
  rw [bind_ok hr.root]
  refine (validateNode_run g hf hr.I hr.odds hr.ord (.inl ⟨rfl, hr.occ⟩)).bind ?_ ?_
  · rintro e w' ⟨h1, g', h2, h3⟩
    exact ⟨.inl h1, g', h2, hr.sim h2 h3⟩
  · rintro _ w' ⟨g', h2, h3⟩
    exact Res.ok rfl ⟨by simp [AgreesE, Spec.step], g', h2, hr.sim h2 h3⟩

end

end SM.BT

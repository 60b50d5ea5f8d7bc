import Verif.BTree.Load

/-! Visiting nodes, and the ways down the tree. -/

namespace SM.BT

open Spec (at? below above)

variable {K V : Type}

/-! ### The same tree, with more or less of it loaded -/

/-- Same contents, same node at the top, same pages on disk. -/
structure Sim (P : Par K) {h : Nat} (t g : Gt K V h) : Prop where
  id : g.id = t.id
  st : g.st = t.st
  erase : g.erase = t.erase
  clean : t.Clean → g.Clean
  odds : g.odds = t.odds
  pages : ∀ q, (bun P q g).2.2.1 = (bun P q t).2.2.1

section
variable {P : Par K} {h H : Nat}

theorem Sim.refl (t : Gt K V h) : Sim P t t := ⟨rfl, rfl, rfl, fun h => h, rfl, fun _ => rfl⟩
theorem Sim.trans {a b c : Gt K V h} (h1 : Sim P a b) (h2 : Sim P b c) : Sim P a c :=
  ⟨h2.id.trans h1.id, h2.st.trans h1.st, h2.erase.trans h1.erase, fun h => h2.clean (h1.clean h), h2.odds.trans h1.odds,
   fun q => (h2.pages q).trans (h1.pages q)⟩
theorem Sim.cnt {t g : Gt K V h} (s : Sim P t g) : g.cnt = t.cnt := by rw [Gt.cnt, s.erase]; rfl
theorem Sim.kid {t g : Gt K V h} (s : Sim P t g) : g.kid = t.kid := by rw [Gt.kid, s.id, s.cnt, s.st]; rfl

theorem Ctx.sim : ∀ {h : Nat} (C : Ctx K V H h) {t g : Gt K V h}, Sim P t g → Sim P (C.plug t) (C.plug g)
  | _, .top, _, _, s => s
  | _, .fr id st pre post up, t, g, s => by
      refine Ctx.sim up ⟨rfl, rfl, ?_, ?_, ?_, fun q => ?_⟩
      · simp [s.erase]
      · simp only [Clean_inner, Row.kids_plug, List.mem_append, List.mem_cons]
        rintro hc c (h | rfl | h)
        · exact hc c (.inl h)
        · have := hc t (.inr (.inl rfl))
          exact ⟨s.clean this.1, by rw [s.st]; exact this.2⟩
        · exact hc c (.inr (.inr h))
      · simp [odds_inner, s.odds]
      · rw [bun_inner, bun_inner, Ctx.row_eq, Ctx.row_eq, s.kid, Row.kids_plug, Row.kids_plug]
        change (_ + kidsB P id _ : B K V).2.2.1 = (_ + kidsB P id _ : B K V).2.2.1
        simp only [kidsB_append, kidsB_cons, Prod.snd_add, Prod.fst_add, s.pages]

/-- Every non-leaf has a key, and no more than `m`. -/
def Pt.NE (m : Nat) : {h : Nat} → Pt K V h → Prop
  | 0, _ => True
  | h + 1, r => ((@_root_.id (Row K (Pt K V h)) r).cs ≠ [] ∧ (@_root_.id (Row K (Pt K V h)) r).cs.length ≤ m) ∧
      ∀ c ∈ (@_root_.id (Row K (Pt K V h)) r).kids, Pt.NE m c

theorem NE_inner {m : Nat} (r : Row K (Pt K V h)) :
    (Pt.inner r).NE m ↔ (r.cs ≠ [] ∧ r.cs.length ≤ m) ∧ ∀ c ∈ r.kids, c.NE m := Iff.rfl

theorem Pt.Occ.ne {min max : Nat} (hm : 0 < min) : ∀ {h : Nat} {p : Pt K V h}, p.Occ min max → p.NE max
  | 0, _, _ => trivial
  | h + 1, p, hp => by
      replace hp := (occ_inner p min max).1 hp
      exact ⟨⟨fun h0 => by
        have := hp.1.1
        replace this : min ≤ (@_root_.id (Row K (Pt K V h)) p).cs.length := this
        rw [h0] at this; simp at this; omega, hp.1.2⟩, fun c hc => (hp.2 c hc).ne hm⟩

theorem Pt.RootOcc.ne {min max : Nat} (hm : 0 < min) : ∀ {h : Nat} {p : Pt K V h}, p.RootOcc min max → p.NE max
  | 0, _, _ => trivial
  | h + 1, p, hp => by
      replace hp := (rootOcc_inner p min max).1 hp
      exact ⟨⟨fun h0 => by
        have := hp.1.1
        replace this : 1 ≤ (@_root_.id (Row K (Pt K V h)) p).cs.length := this
        rw [h0] at this; simp at this, hp.1.2⟩, fun c hc => (hp.2 c hc).ne hm⟩

/-! ### What the struct of a loaded node holds -/

variable {w0 : World K V} {T : Tot K V} {w : World K V} {ρ : Option Id} {R : B K V}

theorem I.leafCell {q : Pos} {i : Id} {st : Option Ref} {l : List (K × V)} (hI : I P w0 T w ρ (bun P q (.leaf i st l) + R)) :
    CellOK w (mkCell P q i st (.leaf l.length l)) := by
  rw [bun_leaf, leafB, add_assoc, add_assoc] at hI
  exact hI.cell

theorem I.innerCell {q : Pos} {i : Id} {st : Option Ref} {r : Row K (Gt K V h)} (hI : I P w0 T w ρ (bun P q (.inner i st r) + R)) :
    CellOK w (mkCell P q i st (r.map Gt.kid).body) := by
  rw [bun_inner, innerB, add_assoc, add_assoc, add_assoc] at hI
  exact hI.cell

/-- Fields of a loaded leaf. -/
structure IsLeaf (P : Par K) (n : NodeS K V) (q : Pos) (l : List (K × V)) : Prop where
  leaf : n.leaf = true
  loaded : n.loaded = true
  items : n.items = l.length
  kv : KvIs P.toCmp n.kv (leafKv l)
  tree : n.tree = P.τ
  parent : n.parent = q.parent
  root : n.root = q.root

/-- Fields of a loaded non-leaf. -/
structure IsInner (P : Par K) (w : World K V) (i : Id) (q : Pos) (r : Row K (Gt K V h)) : Prop where
  leaf : (w.node i).leaf = false
  loaded : (w.node i).loaded = true
  items : (w.node i).items = (r.kids.map Gt.cnt).sum
  left : (w.node i).left = some r.c0.id
  kv : KvIs P.toCmp (w.node i).kv (innerKv (r.cs.map fun p => (p.1, p.2.id)))
  ps : PSOK w.ps (w.node i).psRoot (r.kids.map fun t => (t.id, t.cnt))
  tree : (w.node i).tree = P.τ
  parent : (w.node i).parent = q.parent
  root : (w.node i).root = q.root
  nodup : (r.kids.map Gt.id).Nodup
  counts : ∀ t ∈ r.kids, (w.node t.id).items = t.cnt

theorem I.isLeaf {q : Pos} {i : Id} {st : Option Ref} {l : List (K × V)} (hI : I P w0 T w ρ (bun P q (.leaf i st l) + R)) :
    IsLeaf P (w.node i) q l :=
  have h := hI.leafCell
  ⟨h.body.2.1, h.body.1, h.body.2.2.1, h.body.2.2.2, h.tree, h.parent, h.root⟩

theorem I.isInner {q : Pos} {i : Id} {st : Option Ref} {r : Row K (Gt K V h)} (hI : I P w0 T w ρ (bun P q (.inner i st r) + R)) :
    IsInner P w i q r := by
  have h := hI.innerCell
  have hb := h.body
  simp only [mkCell, Row.body, Row.kids_map, Row.map_c0, Row.map_cs, List.map_map] at hb
  obtain ⟨b1, b2, b3, b4, b5, b6⟩ := hb
  refine ⟨b2, b1, b3.trans ?_, b4, b5, ?_, h.tree, h.parent, h.root, ?_, ?_⟩
  · simp [Row.total, Function.comp_def, Gt.kid]
  · exact (b6 _ rfl).2
  · rw [bun_inner, innerB, add_assoc, add_assoc, add_assoc] at hI
    have := hI.cells.kids
    simp only [kidsOf_cons] at this
    have := (Multiset.nodup_add.1 (Multiset.nodup_add.1 this).1).1
    rw [Multiset.coe_nodup] at this
    simpa [mkCell, Row.body, Body.kids, Row.kids, Function.comp_def, Gt.kid] using this
  · rw [bun_inner] at hI
    have := hI.eq (by abel : _ = (r.kids.map (bun P (Pos.child i))).sum + (innerB P q i st (r.map Gt.kid) + R))
    exact this.itemsKids

/-- Is the node loaded? -/
theorem I.loaded {q : Pos} {t : Gt K V h} (hI : I P w0 T w ρ (bun P q t + R)) : (w.node t.id).loaded = t.ld := by
  cases h with
  | zero =>
    rcases t.cases0 with ⟨i, d, rfl⟩ | ⟨i, st, l, rfl⟩ | ⟨i, o, l, rfl⟩
    · rw [bun_unl, add_assoc, add_assoc] at hI
      exact hI.cell.body.1
    · exact hI.isLeaf.loaded
    · rw [bun_odLeaf, oddB, add_assoc, add_assoc] at hI
      exact hI.cell.body.1
  | succ h =>
    rcases t.casesS with ⟨i, d, rfl⟩ | ⟨i, st, r, rfl⟩ | ⟨i, o, r, rfl⟩
    · rw [bun_unl, add_assoc, add_assoc] at hI
      exact hI.cell.body.1
    · exact hI.isInner.loaded
    · rw [bun_odInner, oddB, add_assoc, add_assoc, add_assoc] at hI
      exact hI.cell.body.1

theorem I.usedT {q : Pos} {t : Gt K V h} (hI : I P w0 T w ρ (bun P q t + R)) (hl : t.ld = true) (ho : t.odds = 0) :
    ∃ w', markNodeUsed P.τ t.id w = (.ok (), w') ∧ I P w0 T w' ρ (bun P q t + R) := by
  cases h with
  | zero =>
    rcases t.cases0 with ⟨i, d, rfl⟩ | ⟨i, st, l, rfl⟩ | ⟨i, o, l, rfl⟩
    rotate_right
    · simp at ho
    · simp at hl
    · rw [bun_leaf, leafB] at hI ⊢
      obtain ⟨w', e, h1⟩ := (hI.eq (by abel : _ = lruB P.ca i st.isNone + (cellB (mkCell P q i st (.leaf l.length l)) +
        ownPage st (mkDisk P q.root l.length (.leaf l)) + R))).used
      exact ⟨w', e, h1.eq (by abel)⟩
  | succ h =>
    rcases t.casesS with ⟨i, d, rfl⟩ | ⟨i, st, r, rfl⟩ | ⟨i, o, r, rfl⟩
    rotate_right
    · simp [odds_odInner] at ho
    · simp at hl
    · rw [bun_inner, innerB] at hI ⊢
      obtain ⟨w', e, h1⟩ := (hI.eq (by abel : _ = lruB P.ca i st.isNone + (cellB (mkCell P q i st (r.map Gt.kid).body) +
        ownPage st (mkDisk P q.root (r.map Gt.kid).total (r.map Gt.kid).disk) + (r.kids.map (bun P (Pos.child i))).sum + R))).used
      exact ⟨w', e, h1.eq (by abel)⟩

/-- `visit` -/
theorem visit_run {q : Pos} {t : Gt K V h} (mark : Bool) (hI : I P w0 T w ρ (bun P q t + R)) (hz : t.odds = 0) (ho : Ord P.toCmp t.erase.seq) :
    Res (visit P.cmp P.τ mark t.id w)
      (fun _ w' => ∃ g : Gt K V h, g.ld = true ∧ Sim P t g ∧ I P w0 T w' ρ (bun P q g + R))
      (fun e w' => Faulty w0 e ∧ I P w0 T w' ρ (bun P q t + R)) := by
  unfold visit
  simp only [getN_bind, hI.loaded]
  cases hl : t.ld with
  | true =>
    simp only [if_true]
    obtain ⟨w1, e1, h1⟩ := hI.incHits
    rw [bind_ok e1]
    cases mark with
    | false => exact Res.ok rfl ⟨t, hl, .refl t, h1⟩
    | true =>
      obtain ⟨w2, e2, h2⟩ := h1.usedT hl hz
      exact Res.ok e2 ⟨t, hl, .refl t, h2⟩
  | false =>
    rw [if_neg (by simp)]
    obtain ⟨w1, e1, h1⟩ := hI.incMisses
    rw [bind_ok e1]
    obtain ⟨i, d, rfl⟩ : ∃ i d, t = .unl i d := by
      cases t with
      | unl i d => exact ⟨i, d, rfl⟩
      | ld i st x => cases hl
      | od i o x => cases hl
    rw [erase_unl] at ho
    refine (load_run h1 ho).mono ?_ (fun e w h => h)
    rintro _ w2 ⟨g, g1, g2, g3, g4, g5, g6, h2⟩
    refine ⟨g, g1, ⟨g2, g3, by rw [g4, erase_unl], fun _ => g5.1, by rw [g5.2, odds_unl], fun q => ?_⟩, h2⟩
    rw [g6, bun_unl]; simp

theorem odds_kid {i : Id} {st : Option Ref} {r : Row K (Gt K V h)} (hz : (Gt.inner i st r).odds = 0) {c : Gt K V h} (hc : c ∈ r.kids) :
    c.odds = 0 := by
  rw [odds_inner] at hz
  obtain ⟨a, b, e⟩ := List.append_of_mem hc
  rw [e, List.map_append, List.sum_append, List.map_cons, List.sum_cons] at hz
  have := congrArg Multiset.card hz
  simp only [Multiset.card_add, Multiset.card_zero] at this
  exact Multiset.card_eq_zero.1 (by omega)

/-! ### Down to a child -/

theorem ctx_down (C : Ctx K V H (h + 1)) (i : Id) (st : Option Ref) (pre : Hole K (Gt K V h)) (c : Gt K V h) (post) :
    bun P C.pos (.inner i st (Row.plug pre c post)) + C.bun P (Gt.inner i st (Row.plug pre c post)).kid =
      bun P (Ctx.fr i st pre post C).pos c + (Ctx.fr i st pre post C).bun P c.kid := by
  rw [bun_inner, Ctx.row_eq, Gt.kid_inner, Ctx.row_eq]
  simp only [Ctx.bun, Ctx.pos, Row.kids_plug]
  have := kidsB_append P i (Row.kidsH pre) (c :: post.map Prod.snd)
  rw [kidsB_cons] at this
  unfold kidsB at this ⊢
  rw [this]
  abel

/-- The compare function failed on this key. -/
def Rejected (P : Par K) (key : K) (e : Err) : Prop := ∃ k, P.cmp key k = .error e

/-- Splitting a sorted list at a key. -/
theorem split_key {β : Type} (C : Cmp K) {l : List (K × β)} (hs : l.Pairwise fun a b => ltb C.cmp a.1 b.1 = true)
    (hv : ∀ p ∈ l, C.Valid p.1) {key : K} (hk : C.Valid key) :
    ∃ a b, l = a ++ b ∧ (∀ p ∈ a, ltb C.cmp key p.1 = false) ∧ (∀ p ∈ b, ltb C.cmp key p.1 = true) := by
  induction l with
  | nil => exact ⟨[], [], rfl, by simp, by simp⟩
  | cons p l ih =>
    rw [List.pairwise_cons] at hs
    obtain ⟨a, b, e, h1, h2⟩ := ih hs.2 (fun q hq => hv q (List.mem_cons_of_mem _ hq))
    cases hp : ltb C.cmp key p.1 with
    | false => exact ⟨p :: a, b, by rw [e]; rfl, by simpa [hp] using h1, h2⟩
    | true =>
      refine ⟨[], p :: l, rfl, by simp, ?_⟩
      simp only [List.mem_cons, forall_eq_or_imp]
      exact ⟨hp, fun q hq => C.law.ltb_trans hk (hv p (by simp)) (hv q (by simp [hq])) hp (hs.1 q hq)⟩

theorem childFor_run {i : Id} {q : Pos} {r : Row K (Gt K V h)} (hI : IsInner P w i q r) (hne : r.cs ≠ []) (key : K) :
    (P.Valid key → ∃ pre c post, r = Row.plug pre c post ∧
      childFor P.cmp i key w = (.ok (some ((Row.kidsH pre).length - 1 : Int), c.id), w) ∧
      (∀ x k, pre = some (x, k) → ltb P.cmp key k = false) ∧ (∀ p ∈ post, ltb P.cmp key p.1 = true)) ∧
    (¬ P.Valid key → ∃ e, childFor P.cmp i key w = (.err e, w) ∧ Rejected P key e) := by
  obtain ⟨c0, cs⟩ := r
  obtain ⟨⟨k1, t1⟩, cs, rfl⟩ := List.exists_cons_of_ne_nil hne
  have h0 : kvGetByIndex i 0 w = (.ok (some (k1, .node t1.id)), w) := by
    rw [kvGet_run hI.kv 0]; rfl
  have hval := hI.kv.valid
  have hsort := hI.kv.sorted
  have hk1 : P.Valid k1 := hval (k1, .node t1.id) (by simp [innerKv])
  unfold childFor
  rw [bind_ok h0]
  dsimp only
  constructor
  · intro hk
    obtain ⟨res, hres, hc⟩ := P.law.cases_cmp hk hk1
    rw [hres]
    dsimp only
    by_cases hlt : 0 > res
    · rw [if_pos hlt]
      have hl : ltb P.cmp key k1 = true := ltb_iff.2 ⟨res, hres, hlt⟩
      refine ⟨none, c0, (k1, t1) :: cs, rfl, ?_, by simp, ?_⟩
      · simp only [getN_bind, hI.left, deref_some_bind, pure_run]; rfl
      · simp only [innerKv, List.map_cons, Spec.Sorted, List.pairwise_cons] at hsort
        simp only [List.mem_cons, forall_eq_or_imp]
        refine ⟨hl, fun p hp => ?_⟩
        have h1 := hsort.1 (p.1, .node p.2.id) (List.mem_map.2 ⟨(p.1, p.2.id), List.mem_map.2 ⟨p, hp, rfl⟩, rfl⟩)
        exact P.law.ltb_trans hk hk1 (hval (p.1, .node p.2.id) (by
          simp only [innerKv, List.map_cons, List.mem_cons]
          exact .inr (List.mem_map.2 ⟨(p.1, p.2.id), List.mem_map.2 ⟨p, hp, rfl⟩, rfl⟩))) hl h1
    · rw [if_neg hlt]
      have hl : ltb P.cmp key k1 = false := by
        cases h' : ltb P.cmp key k1 with
        | false => rfl
        | true =>
          obtain ⟨c, hc1, hc2⟩ := ltb_iff.1 h'
          rw [hres] at hc1; cases hc1; omega
      obtain ⟨tr, ht1, ht2, ht3⟩ := hI.kv
      rw [bind_ok (kvOf_run ht1), LLRB.Tree.bisectLeft_spec P.law ht2 hk, ht3]
      have hs' : ((k1, t1) :: cs).Pairwise fun a b => ltb P.cmp a.1 b.1 = true := by
        have : ((innerKv (((k1, t1) :: cs).map fun p => (p.1, p.2.id)) : List (K × Val V)).Pairwise fun a b => ltb P.cmp a.1 b.1 = true) := hsort
        simp only [innerKv, List.map_map, List.pairwise_map] at this
        exact this
      have hv' : ∀ p ∈ (k1, t1) :: cs, P.Valid p.1 := fun p hp => hval (p.1, .node p.2.id)
        (List.mem_map.2 ⟨(p.1, p.2.id), List.mem_map.2 ⟨p, hp, rfl⟩, rfl⟩)
      obtain ⟨a, b, e, h1, h2⟩ := split_key P.toCmp hs' hv' hk
      have ha : a ≠ [] := by
        rintro rfl
        simp only [List.nil_append] at e
        have := h2 (k1, t1) (by rw [← e]; simp)
        rw [hl] at this; cases this
      obtain ⟨a', ⟨k, t⟩, rfl⟩ : ∃ a' p, a = a' ++ [p] := ⟨a.dropLast, a.getLast ha, (List.dropLast_append_getLast ha).symm⟩
      rw [List.append_assoc, List.singleton_append] at e
      have hkk := h1 (k, t) (by simp)
      have hvk : P.Valid k := hv' (k, t) (by rw [e]; simp)
      rw [e] at hs' hv'
      have hs2 := List.pairwise_append.1 hs'
      have hlow : ∀ p ∈ a', ltb P.cmp p.1 key = true := fun p hp =>
        P.law.lt_nlt_trans (hv' p (by simp [hp])) hvk hk (hs2.2.2 p hp (k, t) (by simp)) hkk
      set f : K × Gt K V h → K × Val V := fun p => (p.1, .node p.2.id) with hf
      have hL : (innerKv (((k1, t1) :: cs).map fun p => (p.1, p.2.id)) : List (K × Val V)) = a'.map f ++ f (k, t) :: b.map f := by
        rw [e]; simp [innerKv, f, Function.comp_def]
      have hb1 : below P.cmp key (a'.map f ++ f (k, t) :: b.map f) = a'.map f ++ below P.cmp key (f (k, t) :: b.map f) := by
        rw [below_append, below_eq_self (fun p hp => by
          obtain ⟨p', hp', rfl⟩ := List.mem_map.1 hp; exact hlow p' hp')]
      have hvb : AllValid P.Valid (b.map f) := fun p hp => by
        obtain ⟨p', hp', rfl⟩ := List.mem_map.1 hp; exact hv' p' (by simp [hp'])
      have hgb : AllGt P.cmp key (b.map f) := fun p hp => by
        obtain ⟨p', hp', rfl⟩ := List.mem_map.1 hp; exact h2 p' hp'
      have hbb := below_eq_nil P.law hvb hk hgb
      have hidx : (if Spec.has P.cmp key (a'.map f ++ f (k, t) :: b.map f) then
          (((below P.cmp key (a'.map f ++ f (k, t) :: b.map f)).length : Int), true, (none : Option Err))
          else (((below P.cmp key (a'.map f ++ f (k, t) :: b.map f)).length : Int) - 1, false, none)) =
          ((a'.length : Int), !ltb P.cmp k key, none) := by
        rw [hb1]
        cases hkey : ltb P.cmp k key with
        | true =>
          rw [below_cons_of (by exact hkey), hbb]
          have : Spec.has P.cmp key (a'.map f ++ f (k, t) :: b.map f) = false := by
            cases hh : Spec.has P.cmp key (a'.map f ++ f (k, t) :: b.map f) with
            | false => rfl
            | true =>
              obtain ⟨p, hp, he⟩ := has_iff.1 hh
              rw [List.mem_append, List.mem_cons] at hp
              rcases hp with hp | rfl | hp
              · obtain ⟨p', hp', rfl⟩ := List.mem_map.1 hp
                rw [P.law.eqb_false_of_gt hk (hv' p' (by simp [hp'])) (hlow p' hp')] at he; cases he
              · rw [P.law.eqb_false_of_gt hk hvk hkey] at he; cases he
              · rw [P.law.eqb_false_of_lt hk (hvb p hp) (hgb p hp)] at he; cases he
          rw [this]; simp
        | false =>
          rw [below_cons_of_not (by exact hkey), hbb]
          have : Spec.has P.cmp key (a'.map f ++ f (k, t) :: b.map f) = true :=
            has_iff.2 ⟨f (k, t), by simp, by
              have := P.law.eqb_eq_lt hk hvk
              rw [hkk] at this
              simp [f, this, hkey]⟩
          rw [this]; simp
      rw [hL, hidx]
      refine ⟨some (⟨c0, a'⟩, k), t, b, by simp only [Row.plug]; rw [e], ?_, ?_, h2⟩
      · simp only [liftBisect, pure_bind_run]
        rw [bind_ok (kvChild_run (n := a'.length) (k := k) (c := t.id) ⟨tr, ht1, ht2, ht3⟩ (by rw [e]; simp))]
        simp [Row.kidsH, Row.kids]
      · intro x k' hx; cases hx; exact hkk
  · intro hk
    obtain ⟨e, he⟩ := P.law.error_of_not_valid (b := k1) hk
    rw [he]
    exact ⟨e, rfl, k1, he⟩

/-! ### Keys and contexts -/

/-- Items to the left are below the key, keys to the left are not above it; everything to the right is above. -/
def Ctx.Fits (P : Par K) (C : Ctx K V H h) (key : K) : Prop :=
  (∀ x ∈ C.lseq, ltb P.cmp key (skey x) = false ∧ ∀ p, x = .inl p → ltb P.cmp p.1 key = true) ∧
  ∀ x ∈ C.rseq, ltb P.cmp key (skey x) = true

theorem Ctx.Fits.top (key : K) : (Ctx.top : Ctx K V H H).Fits P key := by simp [Ctx.Fits, Ctx.lseq, Ctx.rseq]

theorem Ctx.Fits.down {C : Ctx K V H (h + 1)} {key : K} (hf : C.Fits P key) (hk : P.Valid key) {i : Id} {st : Option Ref}
    {pre : Hole K (Gt K V h)} {c : Gt K V h} {post} (ho : Ord P.toCmp ((Ctx.fr i st pre post C).plug c).erase.seq)
    (hpre : ∀ x k, pre = some (x, k) → ltb P.cmp key k = false) (hpost : ∀ p ∈ post, ltb P.cmp key p.1 = true) :
    (Ctx.fr i st pre post C).Fits P key := by
  rw [Ctx.plug_seq, List.append_assoc] at ho
  have hr := ho.right.right
  have hl := ho.left
  constructor
  · cases pre with
    | none => simpa only [Ctx.lseq] using hf.1
    | some xk =>
      obtain ⟨x, k⟩ := xk
      have hkk := hpre x k rfl
      simp only [Ctx.lseq] at hl ⊢
      intro y hy
      rcases List.mem_append.1 hy with hy | hy
      · exact hf.1 y hy
      · have hl' := hl.right
        have hvk := hl'.2 (.inr k) (by simp)
        rcases List.mem_append.1 hy with hy | hy
        · have hvy := hl'.2 y (List.mem_append_left _ hy)
          have := (List.pairwise_append.1 hl'.1).2.2 y hy (.inr k) (by simp)
          have h1 : ltb P.cmp (skey y) k = true := by cases y <;> exact this
          have h2 := P.law.lt_nlt_trans hvy hvk hk h1 hkk
          exact ⟨P.law.ltb_asymm hvy hk h2, fun p hp => by subst hp; exact h2⟩
        · simp only [List.mem_singleton] at hy
          subst hy
          exact ⟨hkk, by simp⟩
  · simp only [Ctx.rseq] at hr ⊢
    intro y hy
    rcases List.mem_append.1 hy with hy | hy
    · obtain ⟨p, hp, hy⟩ := List.mem_flatMap.1 hy
      have hpk := hpost p hp
      rcases List.mem_cons.1 hy with rfl | hy'
      · exact hpk
      · have ho2 := hr.left.sub (t := .inr p.1 :: p.2.erase.seq) (by
          obtain ⟨a, b, e⟩ := List.append_of_mem hp
          rw [e, List.flatMap_append, List.flatMap_cons]
          exact (List.sublist_append_left _ _).trans (List.sublist_append_right _ _))
        have h1 := (List.pairwise_cons.1 ho2.1).1 y hy'
        have hvp := ho2.2 (.inr p.1) (by simp)
        have hvy := ho2.2 y (by simp [hy'])
        cases y with
        | inl z => exact P.law.lt_nlt_trans hk hvp hvy hpk h1
        | inr z => exact P.law.ltb_trans hk hvp hvy hpk h1
    · exact hf.2 y hy

/-- The items among items and keys. -/
def pick (s : List ((K × V) ⊕ K)) : List (K × V) := s.filterMap Sum.getLeft?

theorem pick_append (a b : List ((K × V) ⊕ K)) : pick (a ++ b) = pick a ++ pick b := List.filterMap_append ..

theorem pick_flatMap {α : Type} (l : List α) (f : α → List ((K × V) ⊕ K)) : pick (l.flatMap f) = l.flatMap fun a => pick (f a) := by
  induction l with
  | nil => rfl
  | cons a l ih => simp [pick_append, ih]

theorem mem_pick {s : List ((K × V) ⊕ K)} {p : K × V} : p ∈ pick s ↔ .inl p ∈ s := by
  simp only [pick, List.mem_filterMap]
  constructor
  · rintro ⟨x, hx, h⟩
    cases x with
    | inl q => simp at h; subst h; exact hx
    | inr k => simp at h
  · intro h; exact ⟨_, h, rfl⟩

theorem pick_seq : ∀ {h : Nat} (p : Pt K V h), pick p.seq = p.flat
  | 0, l => by
      show pick ((@_root_.id (List (K × V)) l).map .inl) = @_root_.id (List (K × V)) l
      generalize @_root_.id (List (K × V)) l = l
      induction l with
      | nil => rfl
      | cons a l ih => simpa [pick] using ih
  | h + 1, p => by
      have e1 : p.seq = (@_root_.id (Row K (Pt K V h)) p).c0.seq ++ (@_root_.id (Row K (Pt K V h)) p).cs.flatMap fun p => .inr p.1 :: p.2.seq := rfl
      have e2 : p.flat = (@_root_.id (Row K (Pt K V h)) p).kids.flatMap Pt.flat := rfl
      rw [e1, e2, pick_append, pick_seq, pick_flatMap, Row.kids, List.flatMap_cons, List.flatMap_map]
      congr 2
      funext a
      exact pick_seq a.2

theorem pick_lseq : ∀ {h : Nat} (C : Ctx K V H h), pick C.lseq = C.lflat
  | _, .top => rfl
  | _, .fr id st none post up => by simp only [Ctx.lseq, Ctx.lflat, Row.kidsH]; rw [pick_lseq up]; simp
  | _, .fr id st (some (r, k)) post up => by
      simp only [Ctx.lseq, Ctx.lflat, Row.kidsH]
      rw [pick_append, pick_lseq up, pick_append, pick_seq, flat_inner, Row.kids_map, List.flatMap_map]
      simp [pick]

theorem pick_rseq : ∀ {h : Nat} (C : Ctx K V H h), pick C.rseq = C.rflat
  | _, .top => rfl
  | _, .fr id st pre post up => by
      simp only [Ctx.rseq, Ctx.rflat]
      rw [pick_append, pick_rseq up, pick_flatMap]
      congr 2
      funext a
      exact pick_seq a.2.erase

theorem Ctx.Fits.lt {C : Ctx K V H h} {key : K} (hf : C.Fits P key) : AllLt P.cmp C.lflat key := by
  intro p hp
  rw [← pick_lseq, mem_pick] at hp
  exact (hf.1 _ hp).2 p rfl

theorem Ctx.Fits.gt {C : Ctx K V H h} {key : K} (hf : C.Fits P key) : AllGt P.cmp key C.rflat := by
  intro p hp
  rw [← pick_rseq, mem_pick] at hp
  exact hf.2 _ hp

/-! ### Down to a leaf -/

/-- The context and leaf a descent ends in. -/
def AtLeaf (P : Par K) (w0 : World K V) (T : Tot K V) (ρ : Option Id) (R : B K V) (g : Gt K V H)
    (C : Ctx K V H 0) (i : Id) (st : Option Ref) (l : List (K × V)) (w : World K V) : Prop :=
  Sim P g (C.plug (.leaf i st l)) ∧ I P w0 T w ρ (bun P C.pos (.leaf i st l) + (C.bun P (Gt.leaf i st l).kid + R))

/-- A read that failed. -/
def Failed (P : Par K) (w0 : World K V) (T : Tot K V) (ρ : Option Id) (R : B K V) (g : Gt K V H)
    (w : World K V) : Prop :=
  ∃ g' : Gt K V H, Sim P g g' ∧ I P w0 T w ρ (bun P ⟨none, true⟩ g' + R)

theorem Failed.of {C : Ctx K V H h} {t : Gt K V h} {g : Gt K V H} (hs : Sim P g (C.plug t))
    (hI : I P w0 T w ρ (bun P C.pos t + (C.bun P t.kid + R))) : Failed P w0 T ρ R g w :=
  ⟨_, hs, hI.eq (by rw [bun_plug]; abel)⟩

theorem ord_plug {C : Ctx K V H h} {t : Gt K V h} (ho : Ord P.toCmp (C.plug t).erase.seq) : Ord P.toCmp t.erase.seq := by
  rw [Ctx.plug_seq] at ho
  exact ho.left.right

theorem keyDescend_run (mark : Bool) (key : K) (g : Gt K V H) : ∀ {h : Nat} (C : Ctx K V H h) (t : Gt K V h) {w : World K V}
    {fuel : Nat}, h < fuel → I P w0 T w ρ (bun P C.pos t + (C.bun P t.kid + R)) → Sim P g (C.plug t) →
    Ord P.toCmp (C.plug t).erase.seq → t.odds = 0 → t.erase.NE P.max → (P.Valid key → C.Fits P key) →
    Res (keyDescend P.cmp P.τ mark key fuel t.id C.stack w)
      (fun a w' => ∃ (C' : Ctx K V H 0) (i : Id) (st : Option Ref) (l : List (K × V)), a = (i, C'.stack) ∧
        (P.Valid key → C'.Fits P key) ∧ (P.Valid key ∨ h = 0) ∧ AtLeaf P w0 T ρ R g C' i st l w')
      (fun e w' => (Faulty w0 e ∨ (¬ P.Valid key ∧ Rejected P key e ∧ h ≠ 0)) ∧ Failed P w0 T ρ R g w') := by
  intro h
  induction h with
  | zero =>
    intro C t w fuel hf hI hs ho hz hne hfit
    obtain ⟨fuel, rfl⟩ : ∃ f, fuel = f + 1 := ⟨fuel - 1, by omega⟩
    simp only [keyDescend]
    refine (visit_run mark hI hz (ord_plug ho)).bind ?_ ?_
    · rintro e w1 ⟨h1, h2⟩
      exact ⟨.inl h1, .of hs h2⟩
    · rintro _ w1 ⟨t', g1, g2, h1⟩
      rw [← g2.odds] at hz
      rcases t'.cases0 with ⟨i, d, rfl⟩ | ⟨i, st, l, rfl⟩ | ⟨i, o, l, rfl⟩
      rotate_right
      · simp at hz
      · simp at g1
      · rw [← g2.kid] at h1
        rw [← g2.id]
        simp only [getN_bind, id_leaf, h1.isLeaf.leaf, if_true]
        exact ⟨C, i, st, l, rfl, hfit, .inr (by simp), hs.trans (C.sim g2), h1⟩
  | succ h ih =>
    intro C t w fuel hf hI hs ho hz hne hfit
    obtain ⟨fuel, rfl⟩ : ∃ f, fuel = f + 1 := ⟨fuel - 1, by omega⟩
    simp only [keyDescend]
    refine (visit_run mark hI hz (ord_plug ho)).bind ?_ ?_
    · rintro e w1 ⟨h1, h2⟩
      exact ⟨.inl h1, .of hs h2⟩
    · rintro _ w1 ⟨t', g1, g2, h1⟩
      rw [← g2.odds] at hz
      rcases t'.casesS with ⟨i, d, rfl⟩ | ⟨i, st, r, rfl⟩ | ⟨i, o, r, rfl⟩
      rotate_right
      · simp [odds_odInner] at hz
      · simp at g1
      · rw [← g2.kid] at h1
        rw [← g2.id]
        rw [← g2.erase, erase_inner, NE_inner] at hne
        have hin := h1.isInner
        simp only [getN_bind, id_inner, hin.leaf, Bool.false_eq_true, if_false]
        obtain ⟨c1, c2⟩ := childFor_run hin (by intro h0; exact hne.1.1 (by simp [h0])) key
        have hs' := hs.trans (C.sim g2)
        have ho' : Ord P.toCmp (C.plug (.inner i st r)).erase.seq := by rw [(C.sim (P := P) g2).erase]; exact ho
        by_cases hk : P.Valid key
        · obtain ⟨pre, c, post, rfl, e, h2, h3⟩ := c1 hk
          rw [bind_ok e]
          have := ih (C := .fr i st pre post C) (t := c) (w := w1) (fuel := fuel) (by omega)
            (h1.eq (by rw [← add_assoc, ctx_down, add_assoc])) hs' ho' (odds_kid hz (by simp))
            (hne.2 c.erase (by simp)) (fun _ => (hfit hk).down hk ho' h2 h3)
          refine this.mono ?_ ?_
          · rintro a w2 ⟨C', i', st', l, h4, h5, h6, h7⟩
            exact ⟨C', i', st', l, h4, h5, .inl hk, h7⟩
          · rintro e w2 ⟨h4, h5⟩
            exact ⟨h4.imp_right (fun h => absurd hk h.1), h5⟩
        · obtain ⟨e, e1, e2⟩ := c2 hk
          exact Res.err (bind_err e1) ⟨.inr ⟨hk, e2, by simp⟩, .of hs' h1⟩

theorem mem_idxFrom {x : Int} {q : List (Id × Nat)} {z : Id × Nat × Int} (hz : z ∈ idxFrom x q) : (z.1, z.2.1) ∈ q := by
  induction q generalizing x with
  | nil => simp [idxFrom] at hz
  | cons p q ih =>
    obtain ⟨i, c⟩ := p
    simp only [idxFrom, List.mem_cons] at hz ⊢
    rcases hz with rfl | hz
    · exact .inl rfl
    · exact .inr (ih hz)

theorem idxFrom_split {x : Int} {q : List (Id × Nat)} {pre : List (Id × Nat × Int)} {i : Id} {n : Nat} {y : Int} {post}
    (e : idxFrom x q = pre ++ (i, n, y) :: post) :
    ∃ q1 q2, q = q1 ++ (i, n) :: q2 ∧ pre = idxFrom x q1 ∧ y = x + q1.length := by
  induction q generalizing x pre with
  | nil => simp [idxFrom] at e
  | cons p q ih =>
    obtain ⟨j, c⟩ := p
    cases pre with
    | nil =>
      simp only [idxFrom, List.nil_append, List.cons.injEq, Prod.mk.injEq] at e
      obtain ⟨⟨rfl, rfl, rfl⟩, -⟩ := e
      exact ⟨[], q, rfl, rfl, by simp⟩
    | cons z pre =>
      simp only [idxFrom, List.cons_append, List.cons.injEq] at e
      obtain ⟨rfl, e⟩ := e
      obtain ⟨q1, q2, rfl, rfl, rfl⟩ := ih e
      exact ⟨(j, c) :: q1, q2, rfl, rfl, by simp; omega⟩

theorem Row.split {α : Type} {r : Row K α} {k1 k2 : List α} {c : α} (e : r.kids = k1 ++ c :: k2) :
    ∃ pre post, r = Row.plug pre c post ∧ Row.kidsH pre = k1 ∧ post.map Prod.snd = k2 := by
  obtain ⟨c0, cs⟩ := r
  cases k1 with
  | nil =>
    simp only [Row.kids, List.nil_append, List.cons.injEq] at e
    exact ⟨none, cs, by rw [e.1]; rfl, rfl, e.2⟩
  | cons x k1 =>
    simp only [Row.kids, List.cons_append, List.cons.injEq] at e
    obtain ⟨rfl, e⟩ := e
    obtain ⟨a, b, rfl, e1, e2⟩ := List.map_eq_append_iff.1 e
    obtain ⟨⟨k, c'⟩, b', rfl, e3, e4⟩ := List.map_eq_cons_iff.1 e2
    simp only at e3; subst e3
    exact ⟨some (⟨c0, a⟩, k), b', rfl, by simp [Row.kidsH, Row.kids, e1], e4⟩

theorem lflat_fr (i : Id) (st : Option Ref) (pre : Hole K (Gt K V h)) (post) (C : Ctx K V H (h + 1)) :
    (Ctx.fr i st pre post C).lflat.length = C.lflat.length + ((Row.kidsH pre).map Gt.cnt).sum := by
  simp only [Ctx.lflat, List.length_append, List.length_flatMap]
  rfl

theorem PT.Rep.mem {ps : Id → PSum} : ∀ {b : PT} {p : Option Id}, b.Rep ps p → ∀ {z}, z ∈ b.list → (ps z.1).kvIndex = z.2.2
  | .nil, _, _, _, hz => by simp [PT.list] at hz
  | .node l i c x r, p, ⟨h1, h2, h3⟩, z, hz => by
      simp only [PT.list, List.mem_append, List.mem_cons] at hz
      rcases hz with hz | rfl | hz
      · exact h2.mem hz
      · simp [h1]
      · exact h3.mem hz

theorem indexDescend_run (mark : Bool) (g : Gt K V H) : ∀ {h : Nat} (C : Ctx K V H h) (t : Gt K V h) {w : World K V}
    {fuel : Nat} {k : Nat}, h + P.max + 1 ≤ fuel → I P w0 T w ρ (bun P C.pos t + (C.bun P t.kid + R)) → Sim P g (C.plug t) →
    Ord P.toCmp (C.plug t).erase.seq → t.odds = 0 → t.erase.NE P.max → k < t.cnt →
    Res (indexDescend P.cmp P.τ mark fuel t.id k C.stack w)
      (fun a w' => ∃ (C' : Ctx K V H 0) (i : Id) (st : Option Ref) (l : List (K × V)) (k' : Nat), a = (i, k', C'.stack) ∧
        C.lflat.length + k = C'.lflat.length + k' ∧ k' < l.length ∧ AtLeaf P w0 T ρ R g C' i st l w')
      (fun e w' => Faulty w0 e ∧ Failed P w0 T ρ R g w') := by
  intro h
  induction h with
  | zero =>
    intro C t w fuel k hf hI hs ho hz hne hk
    obtain ⟨fuel, rfl⟩ : ∃ f, fuel = f + 1 := ⟨fuel - 1, by omega⟩
    simp only [indexDescend]
    refine (visit_run mark hI hz (ord_plug ho)).bind ?_ ?_
    · rintro e w1 ⟨h1, h2⟩
      exact ⟨h1, .of hs h2⟩
    · rintro _ w1 ⟨t', g1, g2, h1⟩
      rw [← g2.odds] at hz
      rcases t'.cases0 with ⟨i, d, rfl⟩ | ⟨i, st, l, rfl⟩ | ⟨i, o, l, rfl⟩
      rotate_right
      · simp at hz
      · simp at g1
      · rw [← g2.kid] at h1
        rw [← g2.id]
        rw [← g2.cnt] at hk
        simp only [getN_bind, id_leaf, h1.isLeaf.leaf, if_true]
        exact ⟨C, i, st, l, k, rfl, rfl, hk, hs.trans (C.sim g2), h1⟩
  | succ h ih =>
    intro C t w fuel k hf hI hs ho hz hne hk
    obtain ⟨fuel, rfl⟩ : ∃ f, fuel = f + 1 := ⟨fuel - 1, by omega⟩
    simp only [indexDescend]
    refine (visit_run mark hI hz (ord_plug ho)).bind ?_ ?_
    · rintro e w1 ⟨h1, h2⟩
      exact ⟨h1, .of hs h2⟩
    · rintro _ w1 ⟨t', g1, g2, h1⟩
      rw [← g2.odds] at hz
      rcases t'.casesS with ⟨i, d, rfl⟩ | ⟨i, st, r, rfl⟩ | ⟨i, o, r, rfl⟩
      rotate_right
      · simp [odds_odInner] at hz
      · simp at g1
      · rw [← g2.kid] at h1
        rw [← g2.id]
        rw [← g2.erase, erase_inner, NE_inner] at hne
        rw [← g2.cnt, cnt_inner] at hk
        have hin := h1.isInner
        simp only [getN_bind, id_inner, hin.leaf, Bool.false_eq_true, if_false]
        have hs' := hs.trans (C.sim g2)
        have ho' : Ord P.toCmp (C.plug (.inner i st r)).erase.seq := by rw [(C.sim (P := P) g2).erase]; exact ho
        obtain ⟨b, b1, b2, b3, b4⟩ := hin.ps
        obtain ⟨x, hx, -⟩ := PT.root?_of_ne (b := b) (by rw [b1]; simp [Row.kids, idxFrom])
        have hsum : b.sum = (r.kids.map Gt.cnt).sum := by
          rw [PT.sum_tot, b1, idxFrom_tot, total]; simp [Function.comp_def]
        obtain ⟨pre, i', n, y, post, e1, e2, e3, e4⟩ := psFind_run (w := w1) (fuel := fuel + 1) b2 (by
          intro z hz
          rw [b1] at hz
          obtain ⟨t, ht, e⟩ := List.mem_map.1 (mem_idxFrom hz)
          simp only [Prod.mk.injEq] at e
          rw [← e.1, ← e.2]; exact hin.counts t ht) hx (hsum ▸ hk) (by
            rw [b1, idxFrom_length]; simp
            have := hne.1.2; simp at this; omega)
        rw [b3, hx, deref_some_bind, bind_ok e4]
        rw [b1] at e1
        obtain ⟨q1, q2, e5, rfl, rfl⟩ := idxFrom_split e1
        obtain ⟨k1, k2, e6, rfl, e7⟩ := List.map_eq_append_iff.1 e5
        obtain ⟨c, k2', rfl, e8, rfl⟩ := List.map_eq_cons_iff.1 e7
        simp only [Prod.mk.injEq] at e8
        obtain ⟨rfl, rfl⟩ := e8
        obtain ⟨pre', post', rfl, rfl, rfl⟩ := Row.split e6
        have ht : tot (idxFrom (-1) ((Row.kidsH pre').map fun t => (t.id, t.cnt))) = ((Row.kidsH pre').map Gt.cnt).sum := by
          rw [idxFrom_tot, total]; simp [Function.comp_def]
        rw [ht] at e2 e3 e4 ⊢
        have hkv : (w1.ps c.id).kvIndex = -1 + (Row.kidsH pre').length := by
          have := b2.mem (z := (c.id, c.cnt, -1 + ((Row.kidsH pre').length : Int))) (by rw [b1, e1]; simp)
          exact this
        have := ih (C := .fr i st pre' post' C) (t := c) (w := w1) (fuel := fuel) (k := k - ((Row.kidsH pre').map Gt.cnt).sum) (by omega)
          (h1.eq (by rw [← add_assoc, ctx_down, add_assoc])) hs' ho' (odds_kid hz (by simp))
          (hne.2 c.erase (by simp)) (by omega)
        simp only [getP_bind, hkv]
        rw [show ((-1 + ((Row.kidsH pre').length : Int)) :: C.stack) = (Ctx.fr i st pre' post' C).stack by simp only [Ctx.stack]; rw [show (-1 + ((Row.kidsH pre').length : Int)) = (Row.kidsH pre').length - 1 by omega]]
        refine this.mono ?_ (fun e w h => h)
        rintro a w2 ⟨C', i', st', l, k', h4, h5, h6⟩
        refine ⟨C', i', st', l, k', h4, ?_, h6⟩
        rw [lflat_fr] at h5
        omega

theorem bisectLoop_run {f : LLRB.Tree K (Val V) → Option (Int × Bool × Option Err)} (key : K) (g : Gt K V H) :
    ∀ {h : Nat} (C : Ctx K V H h) (t : Gt K V h) {w : World K V} {fuel : Nat}, h + P.max + 1 ≤ fuel →
    I P w0 T w ρ (bun P C.pos t + (C.bun P t.kid + R)) → Sim P g (C.plug t) →
    Ord P.toCmp (C.plug t).erase.seq → t.odds = 0 → t.erase.NE P.max → (P.Valid key → C.Fits P key) →
    (∀ tr, LLRB.Tree.OK P.cmp P.Valid tr → (∃ a b, f tr = some (a, b, none)) ∨ (¬ P.Valid key ∧ ∃ a b e, f tr = some (a, b, some e) ∧ Rejected P key e ∧ tr.toList ≠ [])) →
    Res (bisectLoop P.cmp P.τ f key fuel t.id C.lflat.length w)
      (fun a w' => ∃ (C' : Ctx K V H 0) (i : Id) (st : Option Ref) (l : List (K × V)) (tr : LLRB.Tree K (Val V)) (j : Int) ,
        LLRB.Tree.OK P.cmp P.Valid tr ∧ tr.toList = leafKv l ∧ f tr = some (j, a.2, none) ∧ a.1 = C'.lflat.length + j ∧
        (P.Valid key → C'.Fits P key) ∧ (P.Valid key ∨ h = 0) ∧ AtLeaf P w0 T ρ R g C' i st l w')
      (fun e w' => (Faulty w0 e ∨ (¬ P.Valid key ∧ Rejected P key e ∧ (h = 0 → t.erase.flat ≠ []))) ∧ Failed P w0 T ρ R g w') := by
  intro h
  induction h with
  | zero =>
    intro C t w fuel hf hI hs ho hz hne hfit hF
    obtain ⟨fuel, rfl⟩ : ∃ f, fuel = f + 1 := ⟨fuel - 1, by omega⟩
    simp only [bisectLoop]
    refine (visit_run true hI hz (ord_plug ho)).bind ?_ ?_
    · rintro e w1 ⟨h1, h2⟩
      exact ⟨.inl h1, .of hs h2⟩
    · rintro _ w1 ⟨t', g1, g2, h1⟩
      rw [← g2.odds] at hz
      rcases t'.cases0 with ⟨i, d, rfl⟩ | ⟨i, st, l, rfl⟩ | ⟨i, o, l, rfl⟩
      rotate_right
      · simp at hz
      · simp at g1
      · rw [← g2.kid] at h1
        rw [← g2.id, ← g2.erase]
        simp only [getN_bind, id_leaf, h1.isLeaf.leaf, if_true]
        obtain ⟨tr, ht1, ht2, ht3⟩ := h1.isLeaf.kv
        rw [bind_ok (kvOf_run ht1)]
        rcases hF tr ht2 with ⟨a, b, hF⟩ | ⟨hk, a, b, e, hF, hr, hne⟩
        · rw [hF]
          exact ⟨C, i, st, l, tr, a, ht2, ht3, hF, rfl, hfit, .inr (by simp), hs.trans (C.sim g2), h1⟩
        · rw [hF]
          refine Res.err rfl ⟨.inr ⟨hk, hr, fun _ => ?_⟩, .of (hs.trans (C.sim g2)) h1⟩
          rw [ht3] at hne
          simpa [leafKv] using hne
  | succ h ih =>
    intro C t w fuel hf hI hs ho hz hne hfit hF
    obtain ⟨fuel, rfl⟩ : ∃ f, fuel = f + 1 := ⟨fuel - 1, by omega⟩
    simp only [bisectLoop]
    refine (visit_run true hI hz (ord_plug ho)).bind ?_ ?_
    · rintro e w1 ⟨h1, h2⟩
      exact ⟨.inl h1, .of hs h2⟩
    · rintro _ w1 ⟨t', g1, g2, h1⟩
      rw [← g2.odds] at hz
      rcases t'.casesS with ⟨i, d, rfl⟩ | ⟨i, st, r, rfl⟩ | ⟨i, o, r, rfl⟩
      rotate_right
      · simp [odds_odInner] at hz
      · simp at g1
      · rw [← g2.kid] at h1
        rw [← g2.id]
        rw [← g2.erase, erase_inner, NE_inner] at hne
        have hin := h1.isInner
        simp only [getN_bind, id_inner, hin.leaf, Bool.false_eq_true, if_false]
        obtain ⟨c1, c2⟩ := childFor_run hin (by intro h0; exact hne.1.1 (by simp [h0])) key
        have hs' := hs.trans (C.sim g2)
        have ho' : Ord P.toCmp (C.plug (.inner i st r)).erase.seq := by rw [(C.sim (P := P) g2).erase]; exact ho
        by_cases hk : P.Valid key
        · obtain ⟨pre, c, post, rfl, e, h2, h3⟩ := c1 hk
          rw [bind_ok e]
          have := ih (C := .fr i st pre post C) (t := c) (w := w1) (fuel := fuel) (by omega)
            (h1.eq (by rw [← add_assoc, ctx_down, add_assoc])) hs' ho' (odds_kid hz (by simp))
            (hne.2 c.erase (by simp)) (fun _ => (hfit hk).down hk ho' h2 h3) hF
          rw [lflat_fr] at this
          replace this := this.mono (Q' := fun a w' => ∃ (C' : Ctx K V H 0) (i : Id) (st : Option Ref) (l : List (K × V)) (tr : LLRB.Tree K (Val V)) (j : Int) ,
            LLRB.Tree.OK P.cmp P.Valid tr ∧ tr.toList = leafKv l ∧ f tr = some (j, a.2, none) ∧ a.1 = C'.lflat.length + j ∧
            (P.Valid key → C'.Fits P key) ∧ (P.Valid key ∨ h + 1 = 0) ∧ AtLeaf P w0 T ρ R g C' i st l w')
            (E' := fun e w' => (Faulty w0 e ∨ (¬ P.Valid key ∧ Rejected P key e ∧ (h + 1 = 0 → t.erase.flat ≠ []))) ∧ Failed P w0 T ρ R g w')
            (by
              rintro a w2 ⟨C', i', st', l, tr, j, h4, h5, h6, h7, h8, h9, h10⟩
              exact ⟨C', i', st', l, tr, j, h4, h5, h6, h7, h8, .inl hk, h10⟩) (by
              rintro e w2 ⟨h4, h5⟩
              exact ⟨h4.imp_right (fun h => absurd hk h.1), h5⟩)
          dsimp only
          split
          · rename_i hidx
            obtain ⟨b, b1, b2, b3, b4⟩ := hin.ps
            have hp := psDelta_run (w := w1) b2 (by
                rw [PT.ids, b1, idxFrom_fst]; simpa [Function.comp_def] using hin.nodup)
              (by
                intro z hz
                rw [b1] at hz
                obtain ⟨t, ht, e⟩ := List.mem_map.1 (mem_idxFrom hz)
                simp only [Prod.mk.injEq] at e
                rw [← e.1, ← e.2]; exact hin.counts t ht) b3
              (pre := idxFrom (-1) ((Row.kidsH pre).map fun t => (t.id, t.cnt))) (c := c.id) (n := c.cnt)
              (x := -1 + (((Row.kidsH pre).map fun t => (t.id, t.cnt)).length : Int))
              (post := idxFrom (-1 + (((Row.kidsH pre).map fun t => (t.id, t.cnt)).length : Int) + 1) ((post.map Prod.snd).map fun t => (t.id, t.cnt)))
              (by rw [b1, Row.kids_plug, List.map_append, List.map_cons, idxFrom_append, idxFrom])
              (fuel := fuel + 1) (by
                rw [b1, idxFrom_length]; simp
                have h0 := Row.length_kids ((Row.plug pre c post).map Gt.erase)
                have := hne.1.2
                rw [Row.kids_map, List.length_map, Row.kids_plug] at h0
                simp only [List.length_append, List.length_cons, List.length_map] at h0
                omega) C.lflat.length
            rw [bind_ok hp]
            have ht : tot (idxFrom (-1) ((Row.kidsH pre).map fun t => (t.id, t.cnt))) = ((Row.kidsH pre).map Gt.cnt).sum := by
              rw [idxFrom_tot, total]; simp [Function.comp_def]
            rw [ht]
            exact this
          · rename_i hidx
            have hnil : Row.kidsH pre = [] := by
              cases hp : Row.kidsH pre with
              | nil => rfl
              | cons a l => simp [hp] at hidx
            rw [hnil] at this
            exact this
        · obtain ⟨e, e1, e2⟩ := c2 hk
          exact Res.err (bind_err e1) ⟨.inr ⟨hk, e2, by simp⟩, .of hs' h1⟩
end
end SM.BT

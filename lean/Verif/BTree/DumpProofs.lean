import Verif.BTree.Dump
import Verif.BTree.Walk

/-! Dump shows the items, as far as it can read them, and changes nothing. -/

namespace SM.BT

variable {K V : Type}

/-- The text does not start in the middle of an item. -/
def Fresh : List (Line K V) → Prop
  | .value _ _ _ :: _ => False
  | _ => True

theorem shown_append : ∀ {a b : List (Line K V)}, Fresh b → shown (a ++ b) = shown a ++ shown b
  | [], b, _ => by simp [shown]
  | x :: a, b, hb => by
      have ih := shown_append (a := a) hb
      cases x with
      | key d i k =>
        cases a with
        | nil =>
          cases b with
          | nil => simp [shown]
          | cons y b =>
            cases y <;> simp [shown, Fresh] at hb ⊢
        | cons y a =>
          cases y with
          | value d i v =>
            have ih2 := shown_append (a := a) hb
            simp only [List.cons_append, shown, ih2]
          | _ => simpa [shown] using ih
      | _ => simpa [shown] using ih

/-- Nothing fails during a dump. -/
structure Smooth (w0 : World K V) (cb : DumpCb K V) : Prop where
  read : ∀ e, ¬Faulty w0 e
  key : ∀ k, cb.keyFails k = false
  value : ∀ v, cb.valueFails v = false

/-- Why a dump fails. -/
def DumpErr (w0 : World K V) (cb : DumpCb K V) (e : Err) : Prop :=
  Faulty w0 e ∨ (e = .codec ∧ ((∃ k, cb.keyFails k = true) ∨ ∃ v, cb.valueFails v = true))

/-- What is printed of the items `l`. -/
structure Dumped (w0 : World K V) (cb : DumpCb K V) (l : List (K × V)) (r : List (Line K V) × Option Err) : Prop where
  fresh : Fresh r.1
  part : (shown r.1).Sublist l
  all : Smooth w0 cb → r.2 = none ∧ shown r.1 = l
  err : ∀ e, r.2 = some e → DumpErr w0 cb e

section
variable {P : Par K} {w0 : World K V} {T : Tot K V} {w : World K V} {ρ : Option Id} {R : B K V} {h H : Nat} {cb : DumpCb K V}

/-- What dumping a child does. -/
def Dumps (P : Par K) (w0 : World K V) (T : Tot K V) (ρ : Option Id) (cb : DumpCb K V) (i : Id)
    (rec : Id → M K V (List (Line K V) × Option Err)) (t : Gt K V h) : Prop :=
  ∀ (R : B K V) (w : World K V), I P w0 T w ρ (bun P (.child i) t + R) →
    Res (rec t.id w) (fun r w' => Dumped w0 cb t.erase.flat r ∧ ∃ g, Sim P t g ∧ I P w0 T w' ρ (bun P (.child i) g + R)) (fun _ _ => False)

theorem dumpLeafLoop_run {i : Id} {rec : Id → M K V (List (Line K V) × Option Err)} {d : Nat} {l : List (K × V)} (hk : KvIs P.toCmp (w.node i).kv (leafKv l)) :
    ∀ (m n : Nat), n + m = l.length →
      ∃ r, dumpLoop cb d true i rec n m w = (.ok r, w) ∧ Dumped w0 cb (l.drop n) r
  | 0, n, hn => ⟨_, rfl, by simp [Fresh], by simp [shown], fun _ => by simp [shown]; omega, by simp⟩
  | m + 1, n, hn => by
      have hlt : n < l.length := by omega
      have e1 : kvGetByIndex i (n : Int) w = (.ok (some (l[n].1, .item l[n].2)), w) := by
        rw [kvGet_run hk n, at?_nat]; simp [leafKv, hlt]
      rw [dumpLoop, bind_ok e1]
      have hd : l.drop n = l[n] :: l.drop (n + 1) := List.drop_eq_getElem_cons hlt
      simp only [deref_some_bind, if_true]
      by_cases h1 : cb.keyFails l[n].1 = true
      · rw [if_pos h1]
        refine ⟨_, rfl, by simp [Fresh], by simp [shown], fun hs => ?_, ?_⟩
        · rw [hs.key] at h1; cases h1
        · rintro e ⟨⟩; exact .inr ⟨rfl, .inl ⟨_, h1⟩⟩
      rw [if_neg h1]
      show ∃ r, (asItem (.item l[n].2) >>= _) w = _ ∧ _
      rw [asItem, pure_bind_run]
      by_cases h2 : cb.valueFails l[n].2 = true
      · rw [if_pos h2]
        refine ⟨_, rfl, by simp [Fresh], by simp [shown], fun hs => ?_, ?_⟩
        · rw [hs.value] at h2; cases h2
        · rintro e ⟨⟩; exact .inr ⟨rfl, .inr ⟨_, h2⟩⟩
      rw [if_neg h2]
      obtain ⟨r, h3, h4⟩ := dumpLeafLoop_run (rec := rec) hk m (n + 1) (by omega)
      rw [bind_ok h3]
      refine ⟨_, rfl, by simp [Fresh], ?_, fun hs => ?_, h4.err⟩
      · rw [hd]; simp only [shown]; exact h4.part.cons_cons _
      · rw [hd]; simp only [shown, (h4.all hs).2, and_true]; exact (h4.all hs).1

theorem dumpInnerLoop_run {i : Id} {rec : Id → M K V (List (Line K V) × Option Err)} {d : Nat} {q : Pos} {st : Option Ref} {κ : Row K Kid} :
    ∀ (post done : List (Gt K V h)) (n m : Nat) {w : World K V}, (done ++ post).map Gt.kid = κ.kids → done.length = n + 1 → post.length = m →
      (∀ t ∈ post, Dumps P w0 T ρ cb i rec t) → I P w0 T w ρ (innerB P q i st κ + (kidsB P i (done ++ post) + R)) →
      Res (dumpLoop cb d false i rec n m w)
        (fun r w' => Dumped w0 cb (post.flatMap fun t => t.erase.flat) r ∧ ∃ post', List.Forall₂ (Sim P) post post' ∧
          I P w0 T w' ρ (innerB P q i st κ + (kidsB P i (done ++ post') + R))) (fun _ _ => False)
  | [], done, n, m, w, _, _, hk, _, hI => by
      simp only [List.length_nil] at hk
      subst hk
      exact Res.ok rfl ⟨⟨by simp [Fresh], by simp [shown], fun _ => by simp [shown], by simp⟩, [], .nil, hI⟩
  | t :: post, done, n, m, w, hκ, hd, hk, hc, hI => by
      simp only [List.length_cons] at hk
      subst hk
      have hh : HasKids P (w.node i) κ := by
        have := hI
        rw [innerB, add_assoc, add_assoc] at this
        exact this.cell.hasKids
      have hn : κ.kids[n + 1]? = some t.kid := by rw [← hκ, ← hd]; simp
      have hn2 : ∃ k, κ.cs[n]? = some (k, t.kid) := by
        simp only [Row.kids, List.getElem?_cons_succ, List.getElem?_map, Option.map_eq_some_iff] at hn
        obtain ⟨⟨k, x⟩, h1, h2⟩ := hn
        exact ⟨k, by rw [h1]; simp at h2; rw [h2]⟩
      obtain ⟨k, hn2⟩ := hn2
      have e1 : kvGetByIndex i (n : Int) w = (.ok (some (k, .node t.id)), w) := by
        rw [kvGet_run hh.kv n, at?_nat]; simp [innerKv, hn2, Gt.kid]
      rw [dumpLoop, bind_ok e1]
      simp only [deref_some_bind, Bool.false_eq_true, if_false]
      by_cases h1 : cb.keyFails k = true
      · rw [if_pos h1]
        refine Res.ok rfl ⟨⟨by simp [Fresh], by simp [shown], fun hs => ?_, ?_⟩, t :: post, forall₂_sim_refl _, hI⟩
        · rw [hs.key] at h1; cases h1
        · rintro e ⟨⟩; exact .inr ⟨rfl, .inl ⟨_, h1⟩⟩
      rw [if_neg h1]
      show Res ((asNode (.node t.id) >>= _) w) _ _
      rw [asNode, pure_bind_run]
      have hI1 := hI.eq (R' := bun P (Pos.child i) t + (innerB P q i st κ + (kidsB P i (done ++ post) + R))) (by
        simp only [kidsB_append, kidsB_cons]; abel)
      have hsp : ∀ (g : Gt K V h) (post' : List (Gt K V h)), innerB P q i st κ + (kidsB P i (done ++ g :: post') + R) =
          bun P (Pos.child i) g + (innerB P q i st κ + (kidsB P i (done ++ post') + R)) := by
        intro g post'
        simp only [kidsB_append, kidsB_cons]; abel
      refine (hc t (by simp) _ _ hI1).bind (fun _ _ h => h) ?_
      rintro a w' ⟨ha, g, h2, h3⟩
      rw [← hsp] at h3
      refine (dumpInnerLoop_run post (done ++ [g]) (n + 1) post.length (w := w') ?_ (by simp [hd]) rfl
        (fun t ht => hc t (by simp [ht])) (by simpa using h3)).bind (fun _ _ h => h) ?_
      · rw [← hκ]; simp [h2.kid]
      · rintro b w'' ⟨hb, post', h5, h6⟩
        have ee : shown (Line.key d n k :: Line.child d :: (a.1 ++ b.1)) = shown a.1 ++ shown b.1 := by
          simp only [shown]; exact shown_append hb.fresh
        refine Res.ok rfl ⟨⟨by simp [Fresh], ?_, fun hs => ?_, hb.err⟩, g :: post', .cons h2 h5, by simpa using h6⟩
        · rw [ee, List.flatMap_cons]; exact ha.part.append hb.part
        · rw [ee, List.flatMap_cons, (ha.all hs).2, (hb.all hs).2]; exact ⟨(hb.all hs).1, rfl⟩

theorem dumpFields_run (d : Nat) (i : Id) (w : World K V) : ∃ a, dumpFields P.τ d i w = (.ok a, w) ∧ ∀ b, Fresh b → Fresh (a ++ b) ∧ shown (a ++ b) = shown b := by
  refine ⟨_, rfl, fun b hb => ?_⟩
  split <;> split <;> simp [Fresh, shown]

theorem dumpNode_run : ∀ {h : Nat} {q : Pos} (t : Gt K V h) {w : World K V} {R : B K V} {fuel d : Nat}, h < fuel →
    I P w0 T w ρ (bun P q t + R) → t.odds = 0 → Ord P.toCmp t.erase.seq →
    Res (dumpNode P.cmp cb P.τ fuel d t.id w) (fun r w' => Dumped w0 cb t.erase.flat r ∧ ∃ g, Sim P t g ∧ I P w0 T w' ρ (bun P q g + R))
      (fun _ _ => False)
  | h, q, t, w, R, 0, _, hf, _, _, _ => by omega
  | h, q, t, w, R, fuel + 1, d, hf, hI, hz, ho => by
      have htree := (hI.head hz).2.2.1
      have hen := ensure_run rfl hI ho
      have e0 : validateLoad P.cmp t.id w = (if !(w.node t.id).loaded then loadNode P.cmp P.τ t.id else pure ()) w := by
        rw [validateLoad, getN_bind, htree]
      rw [← e0] at hen
      unfold dumpNode
      refine hen.attempt.bind (fun _ _ h => h) ?_
      rintro (e | ⟨⟩) w1 hh
      · refine Res.ok rfl ⟨⟨by simp [Fresh], by simp [shown], fun hs => absurd hh.1 (hs.read e), ?_⟩, t, .refl t, hh.2⟩
        rintro e ⟨⟩; exact .inl hh.1
      obtain ⟨g, gl, hs, h1⟩ := hh
      have hid := hs.id
      have hz1 : g.odds = 0 := by rw [hs.odds]; exact hz
      rw [← hs.erase] at ho
      obtain ⟨a, ha, hfr⟩ := dumpFields_run (P := P) d t.id w1
      simp only
      rw [bind_ok ha, getN_bind]
      suffices hh : Res ((do
            let b ← dumpLeft d (w1.node g.id) (dumpNode P.cmp cb P.τ fuel (d + 1))
            let num ← kvLen g.id
            let c ← dumpLoop cb d (w1.node g.id).leaf g.id (dumpNode P.cmp cb P.τ fuel (d + 1)) 0 num.toNat
            return (a ++ b ++ c.1, c.2) : M K V (List (Line K V) × Option Err)) w1)
          (fun r w' => Dumped w0 cb g.erase.flat r ∧ ∃ g', Sim P g g' ∧ I P w0 T w' ρ (bun P q g' + R)) (fun _ _ => False) by
        rw [hid] at hh
        refine hh.mono ?_ (fun _ _ h => h)
        rintro _ _ ⟨b, g', c, e⟩
        rw [hs.erase] at b
        exact ⟨b, g', hs.trans c, e⟩
      clear hen e0 hI hz htree hid hs ha
      cases h with
      | zero =>
        rcases g.cases0 with ⟨i, x, rfl⟩ | ⟨i, st, l, rfl⟩ | ⟨i, o, l, rfl⟩
        · cases gl
        · have hl := h1.isLeaf
          simp only [id_leaf, hl.leaf, dumpLeft, if_true, pure_bind_run]
          rw [bind_ok (kvLen_run hl.kv), leafKv_length, Int.toNat_natCast]
          obtain ⟨r, e1, e2⟩ := dumpLeafLoop_run (P := P) (w0 := w0) (cb := cb) (d := d) (rec := dumpNode P.cmp cb P.τ fuel (d + 1)) hl.kv l.length 0 (by omega)
          rw [bind_ok e1]
          simp only [List.drop_zero] at e2
          have k := hfr r.1 e2.fresh
          refine Res.ok rfl ⟨⟨?_, ?_, fun hs => ?_, e2.err⟩, _, .refl _, h1⟩
          · simpa using k.1
          · simpa [k.2] using e2.part
          · simpa [k.2] using e2.all hs
        · simp at hz1
      | succ h =>
        rcases g.casesS with ⟨i, x, rfl⟩ | ⟨i, st, r, rfl⟩ | ⟨i, o, l, rfl⟩
        · cases gl
        · have hin := h1.isInner
          rw [erase_inner] at ho
          simp only [id_inner, hin.leaf, hin.left, dumpLeft, Bool.false_eq_true, if_false, bind_assoc_run]
          have hrec : ∀ c ∈ r.kids, Dumps P w0 T ρ cb i (dumpNode P.cmp cb P.τ fuel (d + 1)) c := by
            intro c hc R' w' hI'
            exact dumpNode_run c (by omega) hI' (odds_kid hz1 hc) (ho.kid (by rw [Row.kids_map]; exact List.mem_map_of_mem hc))
          have hkids : r.kids = r.c0 :: r.cs.map Prod.snd := rfl
          have h1' : I P w0 T w1 ρ (bun P (Pos.child i) r.c0 + (innerB P q i st (r.map Gt.kid) + (kidsB P i (r.cs.map Prod.snd) + R))) := by
            refine h1.eq ?_
            rw [bun_inner]
            show innerB P q i st (r.map Gt.kid) + kidsB P i r.kids + R = _
            rw [hkids, kidsB_cons]; abel
          have hfin : ∀ {w' : World K V} {L : List (Gt K V h)}, List.Forall₂ (Sim P) r.kids L →
              I P w0 T w' ρ (innerB P q i st (r.map Gt.kid) + (kidsB P i L + R)) →
              ∃ r', r'.map Gt.kid = r.map Gt.kid ∧ Sim P (.inner i st r) (.inner i st r') ∧ I P w0 T w' ρ (bun P q (.inner i st r') + R) := by
            intro w' L hL hI'
            obtain ⟨r', a1, a2, a3⟩ := Sim.row (i := i) (st := st) hL
            refine ⟨r', a2, a3, ?_⟩
            rw [bun_inner, a1, a2, add_assoc]; exact hI'
          refine (hrec r.c0 (by simp [hkids]) _ _ h1').bind (fun _ _ h => h) ?_
          rintro x w2 ⟨hx, c', b2, b3⟩
          have b4 := b3.eq (R' := innerB P q i st (r.map Gt.kid) + (kidsB P i ([c'] ++ r.cs.map Prod.snd) + R)) (by
            rw [List.singleton_append, kidsB_cons]; abel)
          obtain ⟨r2, b5, -, b6⟩ := hfin (L := [c'] ++ r.cs.map Prod.snd) (.cons b2 (forall₂_sim_refl _)) b4
          have hin2 := b6.isInner
          have elen : r2.cs.length = r.cs.length := by
            have := congrArg (fun r => r.cs.length) b5
            simpa using this
          simp only [pure_bind_run]
          rw [bind_ok (kvLen_run hin2.kv)]
          simp only [innerKv_length, List.length_map, elen, Int.toNat_natCast]
          refine (dumpInnerLoop_run (r.cs.map Prod.snd) [c'] 0 r.cs.length (w := w2) ?_ rfl (by simp)
            (fun t ht => hrec t (by rw [hkids]; exact List.mem_cons_of_mem _ ht)) b4).bind (fun _ _ h => h) ?_
          · rw [Row.kids_map, hkids]; simp [b2.kid]
          · rintro y w3 ⟨hy, post', d2, d3⟩
            obtain ⟨r3, d4, d5, d6⟩ := hfin (L := [c'] ++ post') (.cons b2 d2) d3
            have k := hfr (Line.child d :: (x.1 ++ y.1)) (by simp [Fresh])
            have k2 : shown (Line.child d :: (x.1 ++ y.1)) = shown x.1 ++ shown y.1 := by
              simp only [shown]; exact shown_append hy.fresh
            have k3 : (Gt.inner i st r).erase.flat = r.c0.erase.flat ++ (r.cs.map Prod.snd).flatMap fun t => t.erase.flat := by
              rw [erase_inner, flat_inner, Row.kids_map, hkids, List.flatMap_map, List.flatMap_cons]
            have k4 : a ++ Line.child d :: x.1 ++ y.1 = a ++ (Line.child d :: (x.1 ++ y.1)) := by simp
            refine Res.ok rfl ⟨⟨?_, ?_, fun hs => ?_, hy.err⟩, _, d5, d6⟩
            · simp only [k4]; exact k.1
            · simp only [k4]; rw [k.2, k2, k3]; exact hx.part.append hy.part
            · simp only [k4]; rw [k.2, k2, k3, (hx.all hs).2, (hy.all hs).2]; exact ⟨(hy.all hs).1, rfl⟩
        · simp [odds_odInner] at hz1

theorem dump_run {g : Gt K V H} (hr : Rest P w0 T R g w) {fuel : Nat} (hf : H < fuel) :
    Res (dump P.cmp cb P.τ fuel w) (fun r w' => Dumped w0 cb g.erase.flat r ∧ ∃ g', Sim P g g' ∧ Rest P w0 T R g' w') (fun _ _ => False) := by
  unfold dump
  rw [getT_bind, bind_ok hr.root]
  rw [bind_ok (show dumpHead (w.trees P.τ).cached w = _ from rfl)]
  generalize hb : (if (w.trees P.τ).cached then [Line.cache w.ctl.low w.ctl.high w.lru.clean.items w.lru.dirty.items w.ctl.active] else [] : List (Line K V)) = a
  have hfr : ∀ b, Fresh b → Fresh (a ++ b) ∧ shown (a ++ b) = shown b := by
    intro b hf
    subst hb
    split
    · simp [Fresh, shown]
    · exact ⟨by simpa using hf, by simp⟩
  refine (dumpNode_run g hf hr.I hr.odds hr.ord).bind (fun _ _ h => h) ?_
  rintro r w' ⟨h1, g', h2, h3⟩
  have k := hfr (Line.tree (w.trees P.τ).min (w.trees P.τ).max :: r.1) (by simp [Fresh])
  refine Res.ok rfl ⟨⟨?_, ?_, fun hs => ?_, h1.err⟩, g', h2, hr.sim h2 h3⟩
  · simpa using k.1
  · simpa [k.2, shown] using h1.part
  · simpa [k.2, shown] using h1.all hs

end
end SM.BT

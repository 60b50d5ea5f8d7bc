import Verif.BTree.Descend

/-! From a node up to the root: marking nodes dirty, putting counts and prefix sums right. -/

namespace SM.BT

open Spec (at? below above)

variable {K V : Type}

section
variable {P : Par K} {h H : Nat} {w0 : World K V} {T : Tot K V} {w : World K V} {ρ : Option Id} {R : B K V}

/-- What everybody above records does not change when only the location changes. -/
theorem Row.body_st (pre : Hole K (Gt K V h)) (i : Id) (n : Nat) (s s' : Option Ref) (post : List (K × Gt K V h)) :
    ((Ctx.row pre ⟨i, n, s⟩ post).body : Body K V) = (Ctx.row pre ⟨i, n, s'⟩ post).body ∧
    (Ctx.row pre ⟨i, n, s⟩ post).total = (Ctx.row pre ⟨i, n, s'⟩ post).total := by
  rcases pre with _ | ⟨r, k⟩ <;> simp [Ctx.row, Row.body, Row.plug, Row.mapH, Row.total, Row.kids]

theorem Ctx.dirty_bun : ∀ {h : Nat} (C : Ctx K V H h) (i : Id) (n : Nat) (s s' : Option Ref),
    C.dirty.bun P ⟨i, n, s⟩ = C.dirty.bun P ⟨i, n, s'⟩
  | _, .top, _, _, _, _ => rfl
  | _, .fr id st pre post up, i, n, s, s' => by
      simp only [Ctx.dirty, Ctx.bun, innerB, ownPage_none, (Row.body_st pre i n s s' post).1,
        (Row.body_st pre i n s s' post).2]

@[simp] theorem Ctx.dirty_pos (C : Ctx K V H h) : C.dirty.pos = C.pos := by cases C <;> rfl
@[simp] theorem Ctx.dirty_dirty : ∀ {h : Nat} (C : Ctx K V H h), C.dirty.dirty = C.dirty
  | _, .top => rfl
  | _, .fr id st pre post up => by simp only [Ctx.dirty, Ctx.dirty_dirty up]
@[simp] theorem Ctx.dirty_lseq : ∀ {h : Nat} (C : Ctx K V H h), C.dirty.lseq = C.lseq
  | _, .top => rfl
  | _, .fr id st none post up => by simp only [Ctx.dirty, Ctx.lseq, Ctx.dirty_lseq up]
  | _, .fr id st (some (r, k)) post up => by simp only [Ctx.dirty, Ctx.lseq, Ctx.dirty_lseq up]
@[simp] theorem Ctx.dirty_rseq : ∀ {h : Nat} (C : Ctx K V H h), C.dirty.rseq = C.rseq
  | _, .top => rfl
  | _, .fr id st pre post up => by simp only [Ctx.dirty, Ctx.rseq, Ctx.dirty_rseq up]
@[simp] theorem Ctx.dirty_lflat : ∀ {h : Nat} (C : Ctx K V H h), C.dirty.lflat = C.lflat
  | _, .top => rfl
  | _, .fr id st pre post up => by simp only [Ctx.dirty, Ctx.lflat, Ctx.dirty_lflat up]
@[simp] theorem Ctx.dirty_rflat : ∀ {h : Nat} (C : Ctx K V H h), C.dirty.rflat = C.rflat
  | _, .top => rfl
  | _, .fr id st pre post up => by simp only [Ctx.dirty, Ctx.rflat, Ctx.dirty_rflat up]
@[simp] theorem Ctx.dirty_stack : ∀ {h : Nat} (C : Ctx K V H h), C.dirty.stack = C.stack
  | _, .top => rfl
  | _, .fr id st pre post up => by simp only [Ctx.dirty, Ctx.stack, Ctx.dirty_stack up]

theorem Ctx.dirty_clean : ∀ {h : Nat} {C : Ctx K V H h} {s : Option Ref}, C.Clean s → ∀ s', C.dirty.Clean s'
  | _, .top, _, _, _ => trivial
  | _, .fr id st pre post up, _, hc, s' =>
      ⟨fun c h => ⟨(hc.1 c h).1, by simp⟩, by simp, Ctx.dirty_clean hc.2.2 none⟩

theorem mkCell_id (q : Pos) (i : Id) (st : Option Ref) (b : Body K V) : (mkCell P q i st b).id = i := rfl

theorem Ctx.le : ∀ {h : Nat} (_ : Ctx K V H h), h ≤ H
  | _, .top => Nat.le_refl _
  | _, .fr _ _ _ _ up => by have := up.le; omega

/-- `touchLoadedNodeToRoot` -/
theorem touchUp_run : ∀ {h : Nat} (C : Ctx K V H h) {c : Cell K V} {st : Option Ref} {e : DiskNode K V} {b : Bool} {n : Nat}
    {s : Option Ref} {R : B K V} {w : World K V} {fuel : Nat}, H < fuel + h → c.ref = refOf st → c.parent = C.pos.parent →
    c.root = C.pos.root → I P w0 T w ρ (cellB c + lruB P.ca c.id b + ownPage st e + (C.bun P ⟨c.id, n, s⟩ + R)) →
    ∃ w', touchLoadedNodeToRoot P.τ fuel c.id w = (.ok (), w') ∧
      I P w0 T w' ρ (cellB { c with ref := .zero, dirty := true } + lruB P.ca c.id true +
        (C.dirty.bun P ⟨c.id, n, none⟩ + R))
  | _, .top, c, st, e, b, n, s, R, w, fuel, hf, hr, hp, hroot, hI => by
      obtain ⟨fuel, rfl⟩ : ∃ f, fuel = f + 1 := ⟨fuel - 1, by omega⟩
      simp only [touchLoadedNodeToRoot]
      obtain ⟨w1, e1, h1⟩ := hI.markDirty hr
      have hc := (h1.eq (add_assoc _ _ _)).cell
      refine ⟨w1, ?_, h1⟩
      rw [bind_ok e1]
      simp only [getN_bind]
      rw [show (w1.node c.id).root = true from hc.root.trans hroot]
      rfl
  | _, .fr id st' pre post up, c, st, e, b, n, s, R, w, fuel, hf, hr, hp, hroot, hI => by
      have hHh := up.le
      obtain ⟨fuel, rfl⟩ : ∃ f, fuel = f + 1 := ⟨fuel - 1, by omega⟩
      simp only [touchLoadedNodeToRoot]
      obtain ⟨w1, e1, h1⟩ := hI.markDirty hr
      have hc := (h1.eq (add_assoc _ _ _)).cell
      rw [bind_ok e1]
      simp only [getN_bind]
      rw [show (w1.node c.id).root = false from hc.root.trans hroot, show (w1.node c.id).parent = some id from hc.parent.trans hp]
      simp only [Bool.false_eq_true, if_false, deref_some_bind]
      have h2 := h1.eq (R' := cellB (mkCell P up.pos id st' (Ctx.row pre ⟨c.id, n, s⟩ post).body) + lruB P.ca id st'.isNone +
        ownPage st' (mkDisk P up.pos.root (Ctx.row pre ⟨c.id, n, s⟩ post).total (Ctx.row pre ⟨c.id, n, s⟩ post).disk) +
        (up.bun P ⟨id, (Ctx.row pre ⟨c.id, n, s⟩ post).total, st'⟩ + (kidsB P id (Row.kidsH pre) + kidsB P id (post.map Prod.snd) +
          (cellB { c with ref := .zero, dirty := true } + lruB P.ca c.id true) + R))) (by simp only [Ctx.bun, innerB]; abel)
      obtain ⟨w2, e2, h3⟩ := touchUp_run up (c := mkCell P up.pos id st' (Ctx.row pre ⟨c.id, n, s⟩ post).body) (fuel := fuel)
        (by omega) rfl rfl rfl h2
      refine ⟨w2, e2, h3.eq ?_⟩
      rw [(Row.body_st pre c.id n s none post).1, (Row.body_st pre c.id n s none post).2]
      simp only [Ctx.dirty, Ctx.bun, innerB, ownPage_none, Ctx.dirty_pos]
      show cellB (mkCell P up.pos id none (Ctx.row pre ⟨c.id, n, none⟩ post).body) + lruB P.ca id true + _ = _
      simp only [Option.isNone_none, mkCell_id]
      abel

/-! ### Counts -/

/-- With another count. -/
def Body.setItems (m : Nat) : Body K V → Body K V
  | .unl _ => .unl m
  | .leaf _ l => .leaf m l
  | .inner _ c0 cs q => .inner m c0 cs q
  | .raw ld _ lf left l => .raw ld m lf left l

/-- The count. -/
def Body.items : Body K V → Nat
  | .unl n => n
  | .leaf n _ => n
  | .inner n _ _ _ => n
  | .raw _ n _ _ _ => n

theorem BodyIs.setItems {C : Cmp K} {n : NodeS K V} {ps : Id → PSum} {b : Body K V} (hb : BodyIs C n ps b) (m : Nat) :
    BodyIs C { n with items := m } ps (b.setItems m) := by
  cases b with
  | unl => exact ⟨hb.1, rfl⟩
  | leaf => exact ⟨hb.1, hb.2.1, rfl, hb.2.2.2⟩
  | inner => exact ⟨hb.1, hb.2.1, rfl, hb.2.2.2⟩
  | raw => exact ⟨hb.1, hb.2.1, rfl, hb.2.2.2⟩

theorem BodyIs.items {C : Cmp K} {n : NodeS K V} {ps : Id → PSum} {b : Body K V} (hb : BodyIs C n ps b) : n.items = b.items := by
  cases b with
  | unl => exact hb.2
  | leaf => exact hb.2.2.1
  | inner => exact hb.2.2.1
  | raw => exact hb.2.2.1

theorem Body.kids_setItems (b : Body K V) (m : Nat) : (b.setItems m).kids = b.kids := by cases b <;> rfl

/-- Assign the count. -/
theorem I.setItems {c : Cell K V} (hI : I P w0 T w ρ (cellB c + R)) {f : Nat → Nat} {m : Nat} (hm : f c.body.items = m) :
    ∃ w', BT.modN c.id (fun n => { n with items := f n.items }) w = (.ok (), w') ∧
      I P w0 T w' ρ (cellB { c with body := c.body.setItems m } + R) :=
  hI.modN _ rfl (Body.kids_setItems _ _) fun n hn => ⟨hn.tree, hn.parent, hn.root, hn.ref, hn.dirty, by
    show BodyIs c.cm { n with items := f n.items } w.ps (c.body.setItems m)
    rw [hn.body.items, hm]
    exact hn.body.setItems m⟩

/-- The climb through the parent's prefix-sum tree. -/
theorem I.psUp {c : Cell K V} {items : Nat} {c0 : Id} {cs : List (K × Id)} {pre post : List (Id × Nat)} {x : Id} {n n' : Nat}
    {delta : Int} {fuel : Nat} (hI : I P w0 T w ρ (cellB c + R)) (hb : c.body = .inner items c0 cs (some (pre ++ (x, n) :: post)))
    (hd : (n' : Int) = n + delta) (hf : pre.length + post.length + 1 ≤ fuel) :
    ∃ w', updatePsUp delta fuel x w = (.ok (), w') ∧
      I P w0 T w' ρ (cellB { c with body := .inner items c0 cs (some (pre ++ (x, n') :: post)) } + R) := by
  have hc := hI.cell
  have hbody := hc.body
  rw [hb] at hbody
  obtain ⟨b1, b2, b3, b4, b5, b6⟩ := hbody
  obtain ⟨b7, b8⟩ := b6 _ rfl
  have hst := hI.cells
  have hn : ((pre ++ (x, n) :: post).map Prod.fst).Nodup := by
    rw [b7]
    have := hst.kids
    simp only [kidsOf_cons, hb, Body.kids] at this
    exact Multiset.coe_nodup.1 (Multiset.nodup_add.1 (Multiset.nodup_add.1 this).1).1
  obtain ⟨ps', e1, e2, e3⟩ := updatePsUp_run b8 hn hd hf
  refine ⟨_, e1, hI.same (R' := cellB { c with body := .inner items c0 cs (some (pre ++ (x, n') :: post)) } + R) ?_ (Calm.setPs _ _ _) rfl (by simp) (by simp)⟩
  have := hst.set (c' := { c with body := .inner items c0 cs (some (pre ++ (x, n') :: post)) }) (w' := w.setPs ps') rfl
    (by simp [hb, Body.kids]) (fun _ _ => rfl) (fun i hi => e3 i (by rw [b7]; rw [hb] at hi; exact hi)) rfl
    ⟨hc.tree, hc.parent, hc.root, hc.ref, hc.dirty, ⟨b1, b2, b3, b4, b5, fun q' hq' => by
      cases hq'
      exact ⟨by rw [← b7]; simp, e2⟩⟩⟩
  simpa using this

/-- All nodes above have at most so many keys. -/
def Ctx.Slim (m : Nat) : {h : Nat} → Ctx K V H h → Prop
  | _, .top => True
  | _, .fr _ _ pre post up => (Row.kidsH pre).length + post.length ≤ m ∧ up.Slim m

theorem Ctx.Occ.slim {mn mx : Nat} : ∀ {h : Nat} {C : Ctx K V H h}, C.Occ mn mx → C.Slim mx
  | _, .top, _ => trivial
  | _, .fr _ _ _ _ _, ho => ⟨ho.2.1.2, Ctx.Occ.slim ho.2.2⟩

theorem Ctx.Slim.dirty {m : Nat} : ∀ {h : Nat} {C : Ctx K V H h}, C.Slim m → C.dirty.Slim m
  | _, .top, _ => trivial
  | _, .fr _ _ _ _ _, ho => ⟨ho.1, Ctx.Slim.dirty ho.2⟩

theorem Row.total_row (pre : Hole K (Gt K V h)) (k : Kid) (post : List (K × Gt K V h)) :
    (Ctx.row pre k post).total = ((Row.kidsH pre).map Gt.cnt).sum + k.cnt + ((post.map fun p => p.2.cnt)).sum := by
  simp [Ctx.row, Row.total, Function.comp_def, Gt.kid, add_assoc]

theorem Row.body_row (pre : Hole K (Gt K V h)) (k : Kid) (post : List (K × Gt K V h)) :
    ((Ctx.row pre k post).body : Body K V) = .inner (Ctx.row pre k post).total (Ctx.row pre k post).c0.id
      ((Ctx.row pre k post).cs.map fun p => (p.1, p.2.id))
      (some ((Row.kidsH pre).map (fun t => (t.id, t.cnt)) ++ (k.id, k.cnt) :: post.map fun p => (p.2.id, p.2.cnt))) := by
  simp [Row.body, Ctx.row, Function.comp_def, Gt.kid]

/-- The ids do not depend on the counts. -/
theorem Row.ids_row (pre : Hole K (Gt K V h)) (i : Id) (n n' : Nat) (s s' : Option Ref) (post : List (K × Gt K V h)) :
    (Ctx.row pre ⟨i, n, s⟩ post).c0.id = (Ctx.row pre ⟨i, n', s'⟩ post).c0.id ∧
    (Ctx.row pre ⟨i, n, s⟩ post).cs.map (fun p => (p.1, p.2.id)) = (Ctx.row pre ⟨i, n', s'⟩ post).cs.map fun p => (p.1, p.2.id) := by
  rcases pre with _ | ⟨r, k⟩ <;> simp [Ctx.row, Row.plug, Row.mapH]

/-- `updatePrefixSumTreeLeafToRootRecursively` -/
theorem updateRec_run {delta : Int} : ∀ {h : Nat} (C : Ctx K V H h) {c : Cell K V} {st : Option Ref} {e : DiskNode K V} {b : Bool}
    {n n' : Nat} {s : Option Ref} {R : B K V} {w : World K V} {fuel : Nat}, H + P.max < fuel + h → C.Slim P.max →
    c.ref = refOf st → c.parent = C.pos.parent → c.root = C.pos.root → c.body.items = n → (n' : Int) = n + delta →
    I P w0 T w ρ (cellB c + lruB P.ca c.id b + ownPage st e + (C.bun P ⟨c.id, n, s⟩ + R)) →
    ∃ w', updateRec P.τ delta fuel c.id w = (.ok (), w') ∧
      I P w0 T w' ρ (cellB { c with ref := .zero, dirty := true, body := c.body.setItems n' } + lruB P.ca c.id true +
        (C.dirty.bun P ⟨c.id, n', none⟩ + R))
  | _, .top, c, st, e, b, n, n', s, R, w, fuel, hf, hsl, hr, hp, hroot, hn, hd, hI => by
      obtain ⟨fuel, rfl⟩ : ∃ f, fuel = f + 1 := ⟨fuel - 1, by omega⟩
      simp only [updateRec]
      obtain ⟨w1, e1, h1⟩ := (hI.eq (by rw [add_assoc, add_assoc])).setItems (f := fun a => addDelta a delta) (m := n')
        (by rw [hn]; exact addDelta_of hd)
      rw [bind_ok e1]
      obtain ⟨w2, e2, h2⟩ := I.markDirty (c := { c with body := c.body.setItems n' }) (st := st) (b := b) (e := e) hr (h1.eq (by rw [add_assoc, add_assoc]))
      rw [bind_ok (show markNodeDirty P.τ c.id w1 = _ from e2)]
      have hc := (h2.eq (add_assoc _ _ _)).cell
      refine ⟨w2, ?_, h2⟩
      simp only [getN_bind]
      rw [show (w2.node c.id).root = true from hc.root.trans hroot]
      rfl
  | h, .fr id st' pre post up, c, st, e, b, n, n', s, R, w, fuel, hf, hsl, hr, hp, hroot, hn, hd, hI => by
      have hHh := up.le
      obtain ⟨fuel, rfl⟩ : ∃ f, fuel = f + 1 := ⟨fuel - 1, by omega⟩
      simp only [updateRec]
      obtain ⟨w1, e1, h1⟩ := (hI.eq (by rw [add_assoc, add_assoc])).setItems (f := fun a => addDelta a delta) (m := n')
        (by rw [hn]; exact addDelta_of hd)
      rw [bind_ok e1]
      obtain ⟨w2, e2, h2⟩ := I.markDirty (c := { c with body := c.body.setItems n' }) (st := st) (b := b) (e := e) hr (h1.eq (by rw [add_assoc, add_assoc]))
      rw [bind_ok (show markNodeDirty P.τ c.id w1 = _ from e2)]
      have hc := (h2.eq (add_assoc _ _ _)).cell
      simp only [getN_bind]
      rw [show (w2.node c.id).root = false from hc.root.trans hroot, show (w2.node c.id).parent = some id from hc.parent.trans hp]
      simp only [Bool.false_eq_true, if_false, deref_some_bind]
      have h3 := h2.eq (R' := cellB (mkCell P up.pos id st' (Ctx.row pre ⟨c.id, n, s⟩ post).body) + (lruB P.ca id st'.isNone +
        ownPage st' (mkDisk P up.pos.root (Ctx.row pre ⟨c.id, n, s⟩ post).total (Ctx.row pre ⟨c.id, n, s⟩ post).disk) +
        (up.bun P ⟨id, (Ctx.row pre ⟨c.id, n, s⟩ post).total, st'⟩ + (kidsB P id (Row.kidsH pre) + kidsB P id (post.map Prod.snd) +
          (cellB { c with ref := .zero, dirty := true, body := c.body.setItems n' } + lruB P.ca c.id true) + R)))) (by simp only [Ctx.bun, innerB]; abel)
      obtain ⟨w3, e3, h4⟩ := h3.psUp (fuel := fuel + 1) (Row.body_row pre _ post) hd (by
        have := hsl.1
        simp only [List.length_map]; omega)
      rw [bind_ok e3]
      have htot : ((Ctx.row pre ⟨c.id, n', s⟩ post).total : Int) = (Ctx.row pre ⟨c.id, n, s⟩ post).total + delta := by
        rw [Row.total_row, Row.total_row]; push_cast; omega
      set nb : Body K V := .inner (Ctx.row pre ⟨c.id, n, s⟩ post).total (Ctx.row pre ⟨c.id, n, s⟩ post).c0.id
          ((Ctx.row pre ⟨c.id, n, s⟩ post).cs.map fun p => (p.1, p.2.id))
          (some ((Row.kidsH pre).map (fun t => (t.id, t.cnt)) ++ (c.id, n') :: post.map fun p => (p.2.id, p.2.cnt))) with hnb
      replace h4 := h4.eq (R' := cellB (mkCell P up.pos id st' nb) + lruB P.ca id st'.isNone +
        ownPage st' (mkDisk P up.pos.root (Ctx.row pre ⟨c.id, n, s⟩ post).total (Ctx.row pre ⟨c.id, n, s⟩ post).disk) +
        (up.bun P ⟨id, (Ctx.row pre ⟨c.id, n, s⟩ post).total, st'⟩ + (kidsB P id (Row.kidsH pre) + kidsB P id (post.map Prod.snd) +
          (cellB { c with ref := .zero, dirty := true, body := c.body.setItems n' } + lruB P.ca c.id true) + R)))
          (by rw [mkCell_with]; simp only [add_assoc])
      obtain ⟨w4, e4, h5⟩ := updateRec_run up (fuel := fuel) (st := st') (n' := (Ctx.row pre ⟨c.id, n', s⟩ post).total) (by omega) hsl.2
        (c := mkCell P up.pos id st' nb) rfl rfl rfl rfl htot h4
      refine ⟨w4, e4, h5.eq ?_⟩
      have hbody : nb.setItems (Ctx.row pre ⟨c.id, n', s⟩ post).total = (Ctx.row pre ⟨c.id, n', none⟩ post).body := by
        rw [hnb, Body.setItems, Row.body_row, (Row.ids_row pre c.id n n' s none post).1, (Row.ids_row pre c.id n n' s none post).2,
          (Row.body_st (V := V) pre c.id n' s none post).2]
      simp only [Ctx.dirty, Ctx.bun, innerB, ownPage_none, Ctx.dirty_pos]
      rw [(Row.body_st (V := V) pre c.id n' s none post).2, ← (Row.body_st (V := V) pre c.id n' s none post).2, show (mkCell P up.pos id st' nb).body = nb from rfl, hbody, (Row.body_st (V := V) pre c.id n' s none post).2]
      show cellB (mkCell P up.pos id none (Ctx.row pre ⟨c.id, n', none⟩ post).body) + lruB P.ca id true + _ = _
      simp only [Option.isNone_none, mkCell_id]
      abel

/-- `updatePrefixSumTreeLeafToRoot` -/
theorem updateLeaf_run (C : Ctx K V H 0) {i : Id} {st : Option Ref} {l : List (K × V)} {n : Nat} {s : Option Ref} {e : DiskNode K V}
    {b : Bool} {R : B K V} {w : World K V} {fuel : Nat} (hf : H + P.max < fuel) (hsl : C.Slim P.max)
    (hI : I P w0 T w ρ (cellB (mkCell P C.pos i st (.leaf n l)) + lruB P.ca i b + ownPage st e + (C.bun P ⟨i, n, s⟩ + R))) (hne : n ≠ l.length) :
    ∃ w', updatePrefixSumTreeLeafToRoot P.τ fuel i w = (.ok (), w') ∧
      I P w0 T w' ρ (bun P C.pos (.leaf i none l) + (C.dirty.bun P (Gt.leaf i none l).kid + R)) := by
  have hc := (hI.eq (by rw [add_assoc, add_assoc])).cell
  have hb : (w.node i).loaded = true ∧ (w.node i).leaf = true ∧ (w.node i).items = n ∧ KvIs P.toCmp (w.node i).kv (leafKv l) := hc.body
  unfold updatePrefixSumTreeLeafToRoot
  simp only [getN_bind, hb.2.1, hb.2.2.1]
  rw [if_neg (by simp), bind_ok (kvLen_run hb.2.2.2), if_neg (by rw [leafKv_length]; omega)]
  obtain ⟨w', e1, h1⟩ := updateRec_run C (c := mkCell P C.pos i st (.leaf n l)) (n' := l.length) (fuel := fuel)
    (n := n)
    (delta := ((leafKv l).length : Int) - n) (by omega) hsl rfl rfl rfl rfl (by rw [leafKv_length]; omega) hI
  exact ⟨w', e1, h1⟩

theorem Row.ids_kid (r : Row K (Gt K V h)) : ((r.map Gt.kid).body : Body K V) =
    .inner (r.map Gt.kid).total r.c0.id (r.cs.map fun p => (p.1, p.2.id)) (some (r.kids.map fun t => (t.id, t.cnt))) := by
  simp [Row.body, Function.comp_def, Gt.kid]

/-- A non-leaf whose count and prefix sums may be wrong, and which may be clean. -/
def loose (P : Par K) (q : Pos) (i : Id) (st : Option Ref) (items : Nat) (q0 : Option (List (Id × Nat))) (b : Bool)
    (e : DiskNode K V) (r : Row K (Gt K V h)) : B K V :=
  cellB (mkCell P q i st (.inner items r.c0.id (r.cs.map fun p => (p.1, p.2.id)) q0)) + lruB P.ca i b + ownPage st e +
    kidsB P i r.kids

theorem bun_loose (q : Pos) (i : Id) (st : Option Ref) (r : Row K (Gt K V h)) : bun P q (.inner i st r) =
    loose P q i st (r.map Gt.kid).total (some (r.kids.map fun t => (t.id, t.cnt))) st.isNone
      (mkDisk P q.root (r.map Gt.kid).total (r.map Gt.kid).disk) r := by
  rw [bun_inner, innerB, loose, Row.ids_kid]; rfl

theorem arrange_loose {q : Pos} {i : Id} {st : Option Ref} {r : Row K (Gt K V h)} {items : Nat} {q0 : Option (List (Id × Nat))}
    {e : DiskNode K V} {b : Bool} (hI : I P w0 T w ρ (loose P q i st items q0 b e r + R)) :
    ∃ w', arrangePrefixSumTree i w = (.ok (), w') ∧
      I P w0 T w' ρ (loose P q i st (r.map Gt.kid).total (some (r.kids.map fun t => (t.id, t.cnt))) b e r + R) := by
  unfold loose at hI ⊢
  have hk := (hI.eq (by abel : _ = kidsB P i r.kids + (cellB (mkCell P q i st (.inner items r.c0.id (r.cs.map fun p => (p.1, p.2.id)) q0)) + lruB P.ca i b +
    ownPage st e + R))).itemsKids
  obtain ⟨w1, e1, h1⟩ := (hI.eq (by rw [add_assoc, add_assoc, add_assoc])).arrange (q := r.kids.map fun t => (t.id, t.cnt)) rfl
    (by simp [Row.kids, Function.comp_def]) (by
      intro p hp
      obtain ⟨t, ht, rfl⟩ := List.mem_map.1 hp
      exact hk t ht)
  refine ⟨w1, e1, h1.eq ?_⟩
  rw [mkCell_with, add_assoc, add_assoc, add_assoc]
  congr 4
  simp [total, Row.total, Function.comp_def, Gt.kid]

theorem dirty_loose {q : Pos} {i : Id} {st : Option Ref} {r : Row K (Gt K V h)} {items : Nat} {q0 : Option (List (Id × Nat))}
    {e : DiskNode K V} {b : Bool} (hI : I P w0 T w ρ (loose P q i st items q0 b e r + R)) :
    ∃ w', markNodeDirty P.τ i w = (.ok (), w') ∧ I P w0 T w' ρ (loose P q i none items q0 true e r + R) := by
  unfold loose at hI ⊢
  obtain ⟨w1, e1, h1⟩ := (hI.eq (add_assoc _ _ _)).markDirty (c := mkCell P q i st (.inner items r.c0.id (r.cs.map fun p => (p.1, p.2.id)) q0)) rfl
  refine ⟨w1, e1, h1.eq ?_⟩
  rw [ownPage_none, add_zero, ← add_assoc]
  rfl

theorem I.looseCell {q : Pos} {i : Id} {st : Option Ref} {r : Row K (Gt K V h)} {items : Nat} {q0 : Option (List (Id × Nat))}
    {e : DiskNode K V} {b : Bool} (hI : I P w0 T w ρ (loose P q i st items q0 b e r + R)) :
    CellOK w (mkCell P q i st (.inner items r.c0.id (r.cs.map fun p => (p.1, p.2.id)) q0)) := by
  unfold loose at hI
  rw [add_assoc, add_assoc, add_assoc] at hI
  exact hI.cell

theorem Gt.bun_dirty (q : Pos) (i : Id) (e : DiskNode K V) (r : Row K (Gt K V h)) :
    loose P q i none (r.map Gt.kid).total (some (r.kids.map fun t => (t.id, t.cnt))) true e r = bun P q (.inner i none r) := by
  rw [bun_loose]; rfl

theorem Row.ids_plug (pre : Hole K (Gt K V h)) (t : Gt K V h) (n : Nat) (s : Option Ref) (post : List (K × Gt K V h)) :
    (Ctx.row pre ⟨t.id, n, s⟩ post).c0.id = (Row.plug pre t post).c0.id ∧
    (Ctx.row pre ⟨t.id, n, s⟩ post).cs.map (fun p => (p.1, p.2.id)) = (Row.plug pre t post).cs.map fun p => (p.1, p.2.id) := by
  rcases pre with _ | ⟨r, k⟩ <;> simp [Ctx.row, Row.plug, Row.mapH, Gt.kid, Function.comp_def]

/-- `rearrangePrefixSumTreeToRoot`; the counts and prefix sums on the way may be wrong. -/
theorem rearrange_run : ∀ (fuel : Nat) {H h : Nat} (C : Ctx K V H (h + 1)) {i : Id} {st : Option Ref} {r : Row K (Gt K V h)} {items : Nat}
    {q0 : Option (List (Id × Nat))} {e : DiskNode K V} {b : Bool} {n : Nat} {s : Option Ref} {R : B K V} {w : World K V},
    H < fuel + (h + 1) → I P w0 T w ρ (loose P C.pos i st items q0 b e r + (C.bun P ⟨i, n, s⟩ + R)) →
    ∃ w', rearrangePrefixSumTreeToRoot P.τ fuel i w = (.ok (), w') ∧
      I P w0 T w' ρ (bun P C.pos (.inner i none r) + (C.dirty.bun P (Gt.inner i none r).kid + R)) := by
  intro fuel
  induction fuel with
  | zero => intro H h C i st r items q0 e b n s R w hf; have := C.le; omega
  | succ fuel ih =>
    intro H h C i st r items q0 e b n s R w hf hI
    simp only [rearrangePrefixSumTreeToRoot]
    obtain ⟨w1, e1, h1⟩ := arrange_loose hI
    obtain ⟨w2, e2, h2⟩ := dirty_loose h1
    have hc := h2.looseCell
    rw [Gt.bun_dirty] at h2
    rw [bind_ok e1, bind_ok e2]
    simp only [getN_bind]
    rw [show (w2.node i).root = C.pos.root from hc.root, show (w2.node i).parent = C.pos.parent from hc.parent]
    cases C with
    | top => exact ⟨w2, rfl, h2⟩
    | fr id st' pre post up =>
      have := up.le
      simp only [Ctx.pos, Pos.child, Bool.not_false, if_true, deref_some_bind]
      obtain ⟨w3, e3, h3⟩ := ih up (i := id) (st := st') (r := Row.plug pre (.inner i none r) post) (R := R) (w := w2) (by omega)
        (h2.eq (by
          simp only [Ctx.bun, innerB, loose, Row.kids_plug, kidsB_append, kidsB_cons]
          have := Row.ids_plug pre (.inner i none r) n s post
          rw [id_inner] at this
          rw [Row.body_row, this.1, this.2]
          simp only [Ctx.pos]
          abel))
      refine ⟨w3, e3, h3.eq ?_⟩
      rw [← add_assoc, ← add_assoc, ← Ctx.dirty_pos up, ctx_down]
      rfl

end

end SM.BT

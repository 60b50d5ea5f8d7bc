import Verif.Props.Alone

/-!
C59: a snapshot opened as a further map, beside the map it was taken from.

OldBPlusTree may be called with a location of a map that is still open, to read (or go on from) an earlier state of it. The two then read the same
nodes of the storage. The specification (`Api`) has every location belong to one open map, hence the separate proof: up to the moment of opening
the calls are a history as everywhere else; what comes after is compared with a history in which the process had been restarted before.
-/

namespace SM.BT
variable {K V : Type} {t u : TreeId} {w : World K V}

/-! ### Who may read and write where -/

/-- Map `t` has written within `frozen` only; every place is one map's. -/
@[reducible] def Areas.before (area : Nat × Nat → TreeId) (t : TreeId) (frozen : Nat × Nat → Prop) : Areas :=
  ⟨fun x p => area p = x ∧ (x = t → frozen p), fun x p => area p = x ∧ (x = t → frozen p), id, fun h h' => h'.1.symm.trans h.1⟩

/-- What is in `frozen` is no longer written to, and `users` may read it too. -/
@[reducible] def Areas.beside (area : Nat × Nat → TreeId) (frozen : Nat × Nat → Prop) (users : TreeId → Prop) : Areas :=
  ⟨fun x p => area p = x ∨ (users x ∧ frozen p), fun x p => area p = x ∧ ¬frozen p, fun h => .inl h.1,
    fun h h' => h'.elim (fun h' => h'.symm.trans h.1) (fun h' => absurd h'.2 h.2)⟩

section
variable {A B : Areas}

theorem ref_mono {r : Ref} (h : ∀ p, A.reads t p → B.reads u p) (hr : @own _ (@Own.ref A) t r) : @own _ (@Own.ref B) u r := fun hn => h _ (hr hn)

theorem disk_mono {d : DiskNode K V} (h : ∀ p, A.reads t p → B.reads u p) (hd : @own _ (@Own.disk _ _ A) t d) : @own _ (@Own.disk _ _ B) u d := by
  intro c cs e
  obtain ⟨h1, h2⟩ := hd c cs e
  exact ⟨⟨ref_mono h h1.1, trivial⟩, fun a ha => ⟨trivial, ref_mono h (h2 a ha).2.1, trivial⟩⟩

end

variable {area : Nat × Nat → TreeId} {frozen : Nat × Nat → Prop} {users : TreeId → Prop}

theorem Good.beside (h1 : @Good _ _ (.of area) w) (h2 : @Good _ _ (.before area t frozen) w) (hf : ∀ p, frozen p → area p = t) : @Good _ _ (.beside area frozen users) w :=
  by
  obtain ⟨n, p, tr, d, lr⟩ := h1
  obtain ⟨-, -, -, d', -⟩ := h2
  refine @Good.mk _ _ (_) _ (fun i => ?_) p (fun x => ?_) (fun r x hx => ⟨(d r x hx).1, fun y hy => ?_⟩) lr
  · obtain ⟨k1, k2, k3⟩ := n i
    exact ⟨k1, ref_mono (A := .of area) (fun p hp => .inl hp) k2, k3⟩
  · obtain ⟨k1, k2⟩ := tr x
    exact ⟨k1, fun a ha => ref_mono (A := .of area) (fun p hp => .inl hp) (k2 a ha)⟩
  · rcases hy with hy | ⟨hy, hp⟩
    · exact disk_mono (A := .of area) (fun p hp => .inl hp) ((d r x hx).2 y hy)
    · exact disk_mono (A := .before area t frozen) (fun p hp => .inr ⟨hy, hp.2 rfl⟩) ((d' r x hx).2 t ⟨hf _ hp, fun _ => hp⟩)

theorem InPlace.of_before {c : Api.Call K V} {v : Env} (h : @InPlace _ _ (.before area t frozen) c v) : @InPlace _ _ (.of area) c v := by
  rcases h with ⟨x, h1, h2⟩ | h | h
  · refine .inl ⟨x, ?_, fun n p hp => (h2 n p hp).1⟩
    cases c with
    | old y r => exact ⟨h1.1, ref_mono (A := .before area t frozen) (fun p hp => hp.1) h1.2⟩
    | prune y => exact ⟨h1.1, fun _ h => h⟩
    | discard y => exact ⟨h1.1, fun _ h => h⟩
    | _ => exact h1
  · exact .inr (.inl h)
  · exact .inr (.inr h)

/-! ### A snapshot does not say by which map it is opened -/

theorem pages_named (P : Par K) (u : TreeId) : ∀ {H : Nat} (root : Bool) (d : Dt K V H), d.pages { P with τ := u } root = d.pages P root
  | 0, root, d => rfl
  | H + 1, root, d => by
      unfold Dt.pages
      rw [List.map_congr_left fun x _ => pages_named P u false x]
      rfl

theorem SnapOK.len {P : Par K} {r : Ref} {sn : Api.Snap K V} {H : Nat} {d : Dt K V H} (h : SnapOK w P r sn d) : r.len ≠ 0 := by
  rw [← h.ref]
  cases H with
  | zero =>
    obtain ⟨ref, l, rfl⟩ := d.cases0
    exact (h.disk _ (by rw [pages_leaf]; exact Multiset.mem_singleton_self _)).2
  | succ H =>
    obtain ⟨ref, l, rfl⟩ := d.casesS
    exact (h.disk _ (by rw [pages_inner]; exact Multiset.mem_cons_self _ _)).2

/-- The snapshots of `t` become snapshots of `u`. -/
def renamed (t u : TreeId) (s : Api.St K V) : Api.St K V :=
  { s with snaps := fun r => (s.snaps r).map fun sn => { sn with map := if sn.map = t then u else sn.map } }

theorem Inv.renamed {cfg : TreeId → Par K} {n : Nat} {s : Api.St K V} (h : Inv cfg n w s) (hm : ∀ x, s.maps x = none) (hc : cfg u = { cfg t with τ := u }) : Inv cfg n w (renamed t u s) where
  filed := h.filed
  apart := h.apart
  snaps r sn hr := by
    obtain ⟨sn', hr', rfl⟩ := Option.map_eq_some_iff.1 hr
    obtain ⟨H, d, h1, h2, h3⟩ := h.snaps r sn' hr'
    refine ⟨H, d, h1, ?_, h3⟩
    by_cases he : sn'.map = t
    · simp only [he, if_true, hc]
      rw [he] at h2
      exact ⟨h2.ref, h2.items, h2.ord, h2.occ, by rw [pages_named]; exact h2.locs, h2.nodup, by rw [pages_named]; exact h2.disk⟩
    · simp only [he, if_false]
      exact ⟨h2.ref, h2.items, h2.ord, h2.occ, h2.locs, h2.nodup, h2.disk⟩
  owned := by
    refine ⟨fun r sn x y m _ _ hy => ?_, fun r₁ sn₁ r₂ sn₂ x h1 h2 k1 k2 => ?_⟩
    · have : s.maps y = some m := hy
      rw [hm] at this
      cases this
    · obtain ⟨a, h1', rfl⟩ := Option.map_eq_some_iff.1 h1
      obtain ⟨b, h2', rfl⟩ := Option.map_eq_some_iff.1 h2
      simp only [h.owned.same _ _ _ _ x h1' h2' k1 k2]
  exact := h.exact
  shows hs := by
    obtain ⟨L, LK, k⟩ := h.shows hs
    exact ⟨L, LK, k.scene, k.cfg, k.high, k.rep, k.only, k.lost⟩

end SM.BT

namespace SM.Props

open Spec (Op stepE)
open Api (OwnCall Mild Wanted AllWanted answersOn opsOn Pre)
open BT

section
variable {K V : Type} {S : Setup K V} {fuel : Nat} {t u : TreeId} {cs ds : Calls K V} {c : Api.Call K V} {v v0 : Env} {r : Ref} {l : List (K × V)}

section
variable [Areas]

/-- Two worlds the same for `t` stay so, calls on other maps or not, and the operations on `t` return the same. -/
theorem alone_from : ∀ {cs : Calls K V} {x y : World K V}, Good x → Good y → Frame t x y → (∀ x ∈ cs, InPlace x.1 x.2) →
    Good (S.after fuel x cs) ∧ Good (S.after fuel y (cs.filter fun x => about t x.1)) ∧
    Frame t (S.after fuel x cs) (S.after fuel y (cs.filter fun x => about t x.1)) ∧
    answersOn t (S.trace fuel x cs) = answersOn t (S.trace fuel y (cs.filter fun x => about t x.1))
  | [], _, _, hx, hy, h, _ => ⟨hx, hy, h, rfl⟩
  | (c, v) :: cs, x, y, hx, hy, h, hc => by
      have hz := hc (c, v) (by simp)
      replace hc : ∀ x ∈ cs, InPlace x.1 x.2 := fun y hy => hc y (by simp [hy])
      have gx : Good (S.run fuel x c v).2 := hx.exec hz
      have gy : Good (S.run fuel y c v).2 := hy.exec hz
      rcases hz with ⟨u, h1, h2⟩ | ⟨a, b, e⟩ | e
      · dsimp only at h1 h2
        by_cases hu : u = t
        · rw [hu] at h1 h2
          rw [List.filter_cons_of_pos (by show about t c = true; rw [about_home h1]; simp)]
          obtain ⟨k1, k2⟩ := run_same (S := S) (fuel := fuel) h1 h2 hx hy h
          obtain ⟨i1, i2, i3, i4⟩ := alone_from gx gy k2.1 hc
          refine ⟨i1, i2, i3, ?_⟩
          rw [trace_cons, trace_cons]
          cases c with
          | op t' o =>
            have hn : ∀ w, noCache (S.run fuel w (.op t' o) v).1 = (S.run fuel w (.op t' o) v).1 := fun w => noCache_reply nofun _ _
            rw [hn, hn] at k1
            rw [show t' = t from h1] at k1 i4 ⊢
            simp only [answersOn, if_true]
            rw [i4, show (S.see fuel x (.op t o) v).out = (S.see fuel y (.op t o) v).out from k1]
          | _ => exact i4
        · have hf := List.filter_cons_of_neg (l := cs) (p := fun x => about t x.1) (a := (c, v)) (by show ¬about t c = true; rw [about_home h1]; simpa using hu)
          rw [hf]
          obtain ⟨i1, i2, i3, i4⟩ := alone_from gx hy ((run_frame h1 h2 (Ne.symm hu) hx).symm.trans h) hc
          refine ⟨i1, i2, i3, ?_⟩
          rw [trace_cons]
          cases c with
          | op t' o =>
            simp only [answersOn, show t' = u from h1, hu, if_false]
            simpa only [show t' = u from h1] using i4
          | _ => exact i4
      · dsimp only at e
        subst e
        rw [List.filter_cons_of_neg (by simp [about])]
        obtain ⟨i1, i2, i3, i4⟩ := alone_from (cs := cs) gx hy (Frame.trans (by
          simp only [Setup.run, exec]
          rw [reply_world]
          exact { Frame.refl t x with }) h) hc
        exact ⟨i1, i2, i3, by rw [trace_cons]; exact i4⟩
      · dsimp only at e
        subst e
        rw [List.filter_cons_of_pos rfl]
        obtain ⟨i1, i2, i3, i4⟩ := alone_from (cs := cs) gx gy ⟨fun _ _ => rfl, fun _ _ => rfl, fun _ _ => rfl, rfl, rfl, h.disk⟩ hc
        exact ⟨i1, i2, i3, by rw [trace_cons, trace_cons]; exact i4⟩

end

theorem opsOn_about : ∀ (cs : Calls K V), opsOn t ((cs.filter fun x => about t x.1).map Prod.fst) = opsOn t (cs.map Prod.fst)
  | [] => rfl
  | (c, v) :: cs => by
      have ih := opsOn_about cs
      by_cases h : about t c = true
      · rw [List.filter_cons_of_pos (by exact h), List.map_cons, List.map_cons]
        cases c <;> simp only [opsOn, ih]
      · rw [List.filter_cons_of_neg (by exact h), List.map_cons, ih]
        cases c with
        | op t' o =>
          have : t' ≠ t := by rintro rfl; exact h (by simp [about])
          simp [opsOn, this]
        | _ => rfl

/-- The location of a stored map is one of its own. -/
theorem Stored.own [Areas] (h : Stored S fuel cs t r l) (hc : ∀ x ∈ cs, InPlace x.1 x.2) : reads t (r.num, r.off) := by
  obtain ⟨h0, s, m, h1, h2, h3, h4, h5, h6⟩ := h.at
  obtain ⟨b, k1, k2⟩ := Conf.fetchLocation (p := True) (t := t) (K := K) (V := V)
  have he : EnvOk t (calmEnv : Env) := fun n p hp => by cases hp
  have := ((k2 trivial).eval ((now_good (S := S) (fuel := fuel) hc).using calmEnv) he).2.2
  rw [k1.spec.2] at this
  have hl := h.loc
  rw [Setup.run, exec, reply] at hl
  rcases hb : BT.fetchLocation t ((S.now fuel cs).using calmEnv) with ⟨a | _ | _, w'⟩ <;> rw [hb] at hl this <;> cases hl
  refine this _ rfl ?_
  obtain ⟨H, d, -, q, -⟩ := h1.inv.snaps _ _ h6
  exact q.len

/-- A map that no call was made on is as at the start. -/
theorem untouched [Areas] (hn : ∀ x ∈ cs, about u x.1 = true → x.1 = .restart) (hc : ∀ x ∈ cs, InPlace x.1 x.2) (v : Env) : Frame u (S.now fuel cs) (S.now fuel (cs ++ [(.restart, v)])) := by
  have h := alone_frame (S := S) (fuel := fuel) (t := u) hc
  have key : ∀ (ds : Calls K V) (w : World K V), (∀ x ∈ ds, x.1 = .restart) → ∃ w', S.after fuel (boot w) ds = boot w' := by
    intro ds
    induction ds with
    | nil => exact fun w _ => ⟨w, rfl⟩
    | cons x ds ih =>
      obtain ⟨c, v⟩ := x
      intro w hx
      obtain rfl : c = .restart := hx (c, v) (by simp)
      exact ih _ fun y hy => hx y (by simp [hy])
  obtain ⟨w', hw⟩ := key (cs.filter fun x => about u x.1) (start : World K V) fun x hx => hn x (List.mem_filter.1 hx).1 (List.mem_filter.1 hx).2
  rw [show S.now fuel (cs.filter fun x => about u x.1) = boot w' from hw] at h
  rw [Setup.now, Setup.now, after_one]
  exact ⟨h.node, h.ps, h.tag, h.tree, h.next, fun _ _ => rfl⟩

variable {area : Nat × Nat → TreeId} {frozen : Nat × Nat → Prop} {users : TreeId → Prop}

/-- **C59.** The contents of map `t` are stored at `r`, having been put within `frozen`. They are opened as a further map `u`; then `t`, `u` and others are used, and each of
them puts its nodes into an area of its own, outside of `frozen`; neither `t` nor `u` is pruned or discarded (`InPlace`; others may be). Then every other map, `t` above all, returns what
it would return had `u` not been opened, and so does it store, and call the callbacks. -/
theorem C59_others_do_not_notice (hs : Stored S fuel cs t r l) (hf : ∀ p, frozen p → area p = t) (hu : users u)
    (hc : ∀ x ∈ cs, @InPlace _ _ (.before area t frozen) x.1 x.2) (h0 : @EnvOk (.beside area frozen users) u v0)
    (hd : ∀ x ∈ ds, @InPlace _ _ (.beside area frozen users) x.1 x.2)
    {y : TreeId} (hy : y ≠ u) (hm : @Home _ _ (.beside area frozen users) y c) (hv : @EnvOk (.beside area frozen users) y v) :
    noCache (S.run fuel (S.now fuel (cs ++ (.old u r, v0) :: ds)) c v).1 = noCache (S.run fuel (S.now fuel (cs ++ ds.filter fun x => about y x.1)) c v).1 ∧
    (∀ q : Ref, area (q.num, q.off) = y → (S.run fuel (S.now fuel (cs ++ (.old u r, v0) :: ds)) c v).2.disk q = (S.run fuel (S.now fuel (cs ++ ds.filter fun x => about y x.1)) c v).2.disk q) ∧
    (S.run fuel (S.now fuel (cs ++ (.old u r, v0) :: ds)) c v).2.env = (S.run fuel (S.now fuel (cs ++ ds.filter fun x => about y x.1)) c v).2.env := by
  have hr := (@Stored.own _ _ _ _ _ _ _ _ (.before area t frozen) hs hc).2 rfl
  have g1 := @now_good _ _ S fuel (.of area) cs fun x hx => (hc x hx).of_before
  have g2 := @now_good _ _ S fuel (.before area t frozen) cs hc
  have g := Good.beside (users := users) g1 g2 hf
  let _ := Areas.beside area frozen users
  have hd' : ∀ x ∈ ((.old u r, v0) :: ds : Calls K V), InPlace x.1 x.2 := by
    intro x hx
    rcases List.mem_cons.1 hx with rfl | hx
    · exact .inl ⟨u, ⟨rfl, fun _ => .inr ⟨hu, hr⟩⟩, h0⟩
    · exact hd x hx
  obtain ⟨k1, k2, k3, -⟩ := alone_from (S := S) (fuel := fuel) (t := y) g g (.refl _ _) hd'
  rw [List.filter_cons_of_neg (by simpa [about] using Ne.symm hy)] at k2 k3
  rw [← after_append] at k1 k2 k3
  rw [← after_append] at k3
  obtain ⟨h1, h2⟩ := run_same (S := S) (fuel := fuel) hm hv k1 k2 k3
  exact ⟨h1, fun q hq => h2.1.disk q (.inl hq), h2.2⟩

/-- **C59.** In the same situation, if the callbacks work for `u` and its parameters are those of `t`: opening succeeds, and the operations on `u` return what they return on a sorted
map that contained at first what `t` contained when the snapshot was taken, whatever is called on `t` and the others in between. -/
theorem C59_snapshot_beside (hs : Stored S fuel cs t r l) (hf : ∀ p, frozen p → area p = t) (hu : users u) (hcfg : S.cfg u = { S.cfg t with τ := u })
    (hc : ∀ x ∈ cs, @InPlace _ _ (.before area t frozen) x.1 x.2) (hn : ∀ x ∈ cs, about u x.1 = true → x.1 = .restart)
    (h0 : @EnvOk (.beside area frozen users) u v0) (hv0 : v0.CanRead)
    (hd : ∀ x ∈ ds, @InPlace _ _ (.beside area frozen users) x.1 x.2) (ho : ∀ x ∈ ds, about u x.1 = true → OwnCall (S.api u) u x.1 ∧ x.2.Works)
    (hfu : ∀ t, (S.cfg t).max + (cs.length + 2 + ds.length) + 2 < fuel) :
    (S.run fuel (S.now fuel cs) (.old u r) v0).1 = .ok .unit ∧
    AllWanted (S.cfg u).cmp (answersOn u (S.trace fuel (S.now fuel (cs ++ [(.old u r, v0)])) ds)) (Spec.run (S.cfg u).cmp l (opsOn u (ds.map Prod.fst))).1 := by
  have hr := (@Stored.own _ _ _ _ _ _ _ _ (.before area t frozen) hs hc).2 rfl
  have g1 := @now_good _ _ S fuel (.of area) cs fun x hx => (hc x hx).of_before
  have g2 := @now_good _ _ S fuel (.before area t frozen) cs hc
  have g := Good.beside (users := users) g1 g2 hf
  have fr := @untouched _ _ S fuel u cs (.of area) hn (fun x hx => (hc x hx).of_before) calmEnv
  have fr' : @Frame _ _ (.beside area frozen users) u (S.now fuel cs) (S.now fuel (cs ++ [(.restart, calmEnv)])) := by
    obtain ⟨a1, a2, a3, a4, a5, -⟩ := fr
    refine @Frame.mk _ _ (_) _ _ _ a1 a2 a3 a4 a5 fun q _ => ?_
    rw [Setup.now, Setup.now, after_one]
    rfl
  obtain ⟨-, s, m, s1, s2, s3, s4, s5, s6⟩ := hs.at
  let _ := Areas.beside area frozen users
  have hr : reads u (r.num, r.off) := .inr ⟨hu, hr⟩
  have ho' : InPlace (.old u r : Api.Call K V) v0 := .inl ⟨u, ⟨rfl, fun _ => hr⟩, h0⟩
  have gy : Good (S.now fuel (cs ++ [(.restart, calmEnv)])) := by rw [Setup.now, after_one]; exact g.exec (.inr (.inr rfl))
  -- `u` alone, after a restart
  obtain ⟨s', a1, a2⟩ := s1.one (v := calmEnv) (c := .restart) (fun t => by have := hfu t; simp; omega) trivial
  obtain ⟨-, -, rfl⟩ := a1.2
  have i1 := a2.inv.renamed (t := t) (u := u) (fun _ => rfl) hcfg
  have e6 : (renamed t u { s with maps := fun _ => none, lost := s.holds, sound := true }).snaps r = some ⟨u, l, m.live⟩ := by
    simp [renamed, s6]
  have hp : Pre S.api v0.faults (renamed t u { s with maps := fun _ => none, lost := s.holds, sound := true }) (.old u r) := by
    simp only [Pre, renamed, if_true]
    exact ⟨trivial, _, e6, rfl⟩
  obtain ⟨s2, b1, b2⟩ := i1.step (v := v0) (fuel := fuel) (c := .old u r) (fun t => by have := hfu t; simp; omega) hp
  have b3 := b1.2
  simp only [show (renamed t u { s with maps := fun _ => none, lost := s.holds, sound := true }).sound = true from rfl, if_true] at b3
  obtain ⟨-, sn, c1, c2⟩ := b3
  rw [e6, Option.some.injEq] at c1
  subst c1
  obtain ⟨c3, rfl⟩ := c2.resolve_right (by rintro ⟨e, -, k, -⟩; exact hv0.no.not k)
  -- and among the others
  obtain ⟨k1, k2⟩ := run_same (S := S) (fuel := fuel) (c := .old u r) (v := v0) ⟨rfl, fun _ => hr⟩ h0 g gy fr'
  have hnc : ∀ w, noCache (S.run fuel w (.old u r) v0).1 = (S.run fuel w (.old u r) v0).1 := fun w => noCache_reply nofun _ _
  rw [hnc, hnc] at k1
  refine ⟨k1.trans c3, ?_⟩
  obtain ⟨-, -, -, k3⟩ := alone_from (S := S) (fuel := fuel) (t := u) (cs := ds) (g.exec ho') (gy.exec ho') k2.1 hd
  rw [Setup.now, after_one, show answersOn u (S.trace fuel (S.run fuel (S.after fuel start cs) (.old u r) v0).2 ds) = _ from k3, ← opsOn_about]
  have hk : ∀ w, ∀ x ∈ S.trace fuel w (ds.filter fun x => about u x.1), OwnCall (S.api u) u x.1 ∧ x.2.1.NoFault := by
    intro w x hx
    obtain ⟨a, c, v, b, e, rfl⟩ := mem_trace hx
    have hm : (c, v) ∈ ds.filter fun x => about u x.1 := by rw [e]; simp
    obtain ⟨q1, q2⟩ := List.mem_filter.1 hm
    exact ⟨(ho _ q1 q2).1, (ho _ q1 q2).2.no⟩
  have hl : (ds.filter fun x => about u x.1).length ≤ ds.length := List.length_filter_le _ _
  have := Api.Meets.sorted (t := u) (b2.meets S.size S.named (ds.filter fun x => about u x.1) (fun t => by have := hfu t; simp; omega))
    (Api.legal_mild (t := u) rfl (Api.set_same _ _ _) rfl fun x hx => ⟨(hk _ x hx).1, .of_noFault (hk _ x hx).2⟩) rfl (Api.set_same _ _ _) (fun x hx => ⟨(hk _ x hx).1.keeps, (hk _ x hx).2⟩)
  rw [← trace_calls (S := S) (fuel := fuel) (w := (S.run fuel (S.now fuel (cs ++ [(.restart, calmEnv)])) (.old u r) v0).2) (cs := ds.filter fun x => about u x.1)]
  exact this

end

/-! A concrete case: map 0 has been stored, some of it several times, in the objects 1, 2 and 3; it is opened as map 1 and goes on. -/

/-- where the nodes of maps 0 and 1 go: those of map 0 into 1, 2, 3 and later on 9 -/
def besideArea (p : Nat × Nat) : TreeId := if p.1 = 1 ∨ p.1 = 2 ∨ p.1 = 3 ∨ p.1 = 9 then 0 else 1

def besideFrozen (p : Nat × Nat) : Prop := p.1 = 1 ∨ p.1 = 2 ∨ p.1 = 3

def besideCalls : Calls Nat Nat :=
  [(.op 0 (.put 55 5), calmEnv), (.op 1 (.put 56 1), calmEnv), (.flush 0 false, putEnv 9), (.op 1 (.getByKey 55), calmEnv), (.flush 1 true, putEnv 5), (.purge 0 true, calmEnv), (.op 1 .len, calmEnv)]

theorem storeHist_beside : ∀ x ∈ storeHist, @InPlace _ _ (.before besideArea 0 besideFrozen) x.1 x.2 := by
  let _ := Areas.before besideArea 0 besideFrozen
  have h0 : EnvOk 0 calmEnv := fun n p h => by cases h
  have h1 : EnvOk 0 (putEnv 1) := fun n p h => by cases h; exact ⟨rfl, fun _ => .inl rfl⟩
  have h2 : EnvOk 0 (putEnv 2) := fun n p h => by cases h; exact ⟨rfl, fun _ => .inr (.inl rfl)⟩
  have h3 : EnvOk 0 (putEnv 3) := fun n p h => by cases h; exact ⟨rfl, fun _ => .inr (.inr rfl)⟩
  intro x hx
  simp only [storeHist, storeCalls, List.mem_append, List.mem_cons, List.not_mem_nil, or_false, List.mem_map, List.mem_range] at hx
  rcases hx with rfl | ⟨k, -, rfl⟩ | rfl | rfl | rfl | rfl | rfl | rfl | rfl | rfl | rfl | rfl | rfl | rfl
  all_goals first | exact .inl ⟨0, rfl, h0⟩ | exact .inl ⟨0, ⟨rfl, fun _ h => h⟩, h0⟩ | exact .inl ⟨0, rfl, h1⟩ | exact .inl ⟨0, rfl, h2⟩ | exact .inl ⟨0, rfl, h3⟩

theorem besideCalls_beside : ∀ x ∈ besideCalls, @InPlace _ _ (.beside besideArea besideFrozen (· = 1)) x.1 x.2 := by
  let _ := Areas.beside besideArea besideFrozen (· = 1)
  have h0 : ∀ t, EnvOk t calmEnv := fun t n p h => by cases h
  have h5 : EnvOk 1 (putEnv 5) := fun n p h => by cases h; exact ⟨rfl, by simp [besideFrozen]⟩
  have h9 : EnvOk 0 (putEnv 9) := fun n p h => by cases h; exact ⟨rfl, by simp [besideFrozen]⟩
  intro x hx
  simp only [besideCalls, List.mem_cons, List.not_mem_nil, or_false] at hx
  rcases hx with rfl | rfl | rfl | rfl | rfl | rfl | rfl
  exacts [.inl ⟨0, rfl, h0 0⟩, .inl ⟨1, rfl, h0 1⟩, .inl ⟨0, rfl, h9⟩, .inl ⟨1, rfl, h0 1⟩, .inl ⟨1, rfl, h5⟩, .inl ⟨0, rfl, h0 0⟩, .inl ⟨1, rfl, h0 1⟩]

theorem besideFrozen_own (p : Nat × Nat) (h : besideFrozen p) : besideArea p = 0 := by
  unfold besideArea
  rw [if_pos]
  rcases h with h | h | h <;> simp [h]

example : True := by
  obtain ⟨r, l, h⟩ := storeHist_stored
  have h1 := C59_others_do_not_notice (users := (· = 1)) (u := 1) (c := .op 0 (.getByIndex 3)) (v := calmEnv) (v0 := calmEnv) (y := 0) h besideFrozen_own rfl storeHist_beside
    (fun n p h => by cases h) besideCalls_beside (by decide) rfl (fun n p h => by cases h)
  have h2 := C59_snapshot_beside (users := (· = 1)) (u := 1) (v0 := calmEnv) h besideFrozen_own rfl rfl storeHist_beside
    (by
      intro x hx
      simp only [storeHist, storeCalls, List.mem_append, List.mem_cons, List.not_mem_nil, or_false, List.mem_map, List.mem_range] at hx
      rcases hx with rfl | ⟨k, -, rfl⟩ | rfl | rfl | rfl | rfl | rfl | rfl | rfl | rfl | rfl | rfl | rfl | rfl <;> simp [about])
    (fun n p h => by cases h) calmEnv_works.1 besideCalls_beside
    (by
      intro x hx
      simp only [besideCalls, List.mem_cons, List.not_mem_nil, or_false] at hx
      rcases hx with rfl | rfl | rfl | rfl | rfl | rfl | rfl <;> intro ha <;> first | exact absurd ha (by decide) | exact ⟨rfl, calmEnv_works⟩ | exact ⟨⟨rfl, by show 56 < 1000; omega⟩, calmEnv_works⟩)
    (fun t => by have := storeHist_enough 9 (by omega) t; simpa [besideCalls] using this)
  trivial

theorem valueOf_some {K V : Type} {o : Out (Api.Reply K V)} {x : Option V} (h : valueOf o = some x) : o = .ok (.ans (.value x, none)) := by
  unfold valueOf at h
  split at h
  · cases h; rfl
  · cases h

/-- where the contents of map 0 lie -/
def besideRef : Ref := ((locOf (sampleSetup.run 60 (sampleSetup.now 60 storeHist) (.location 0) calmEnv).1).getD .zero)

/-- **C59**, why neither may be pruned: the snapshot is opened as map 1; map 0 is changed, stored again and pruned, and a key that the snapshot contains can no longer be read in map 1. -/
theorem C59_prune_takes_from_the_other : ∃ r l, Stored sampleSetup 60 storeHist 0 r l ∧
    (sampleSetup.run 60 (sampleSetup.now 60 (storeHist ++ [(.old 1 r, calmEnv)])) (.op 1 (.getByKey 50)) calmEnv).1 = .ok (.ans (.value (some 5), none)) ∧
    (sampleSetup.run 60 (sampleSetup.now 60 (storeHist ++ [(.old 1 r, calmEnv), (.op 0 (.put 55 5), calmEnv), (.flush 0 false, putEnv 9), (.prune 0, calmEnv)])) (.op 1 (.getByKey 50)) calmEnv).1 = .err .getNode := by
  obtain ⟨r, l, h⟩ := storeHist_stored
  have e : besideRef = r := by
    unfold besideRef
    rw [h.loc]
    rfl
  refine ⟨r, l, h, ?_, ?_⟩
  · subst e
    exact valueOf_some (by decide +kernel)
  · subst e
    exact errOf_some (by decide +kernel)

end SM.Props

import Verif.Props.Run

/-!
What the specification of the B+Tree API implies for snapshots. The model is not mentioned here.
-/

namespace SM.Api

open Spec (Op Ans AgreesE Refused stepE has)
open BT (Ref TreeId Out)

variable {K V : Type} {cfg : TreeId → Cfg K} {F : Faults} {s s' : St K V} {c : Call K V} {o : Obs K V} {t : TreeId} {m : Map K V} {r : Ref} {sn : Snap K V}

/-- The states that can be reached. -/
structure Sane (s : St K V) : Prop where
  apart : s.Apart
  owned : s.Owned
  kept : s.Kept
  /-- where the contents of a map are stored there is a snapshot of them -/
  saved : ∀ t m r, s.maps t = some m → m.saved = some r → s.snaps r = some ⟨t, m.items, m.live⟩

theorem Sane.init : Sane (init : St K V) :=
  ⟨fun _ _ h => (by cases h), ⟨fun _ _ _ _ _ h => (by cases h), fun _ _ _ _ _ h => (by cases h)⟩, fun _ _ h => (by cases h), fun _ _ _ h => (by cases h)⟩

theorem forget_keep {D : Multiset Ref} (h : s.snaps r = some sn) (hd : Disjoint sn.locs D) : (s.forget D).snaps r = some sn := by
  classical
  simp only [St.forget, h, if_pos hd]

theorem forget_gone {D : Multiset Ref} {x : Ref} (h : s.snaps r = some sn) (hx : x ∈ sn.locs) (hD : x ∈ D) : (s.forget D).snaps r = none := by
  classical
  have : ¬Disjoint sn.locs D := fun hd => Multiset.disjoint_left.1 hd hx hD
  simp only [St.forget, h, if_neg this]

theorem forget_some {D : Multiset Ref} (h : (s.forget D).snaps r = some sn) : s.snaps r = some sn ∧ Disjoint sn.locs D := by
  classical
  simp only [St.forget] at h
  split at h
  · next x hx =>
    split at h
    · next hd =>
      rw [Option.some.injEq] at h
      subst h
      exact ⟨hx, hd⟩
    · cases h
  · cases h

theorem Sane.live_old (h : Sane s) (hm : s.maps t = some m) : Disjoint m.live m.old := by
  have := (h.apart t m hm).1
  rw [Multiset.nodup_add] at this
  exact this.2.2

/-- Locations of different maps are different. -/
theorem Sane.other (h : Sane s) (hm : s.maps t = some m) {t' : TreeId} {m' : Map K V} (hm' : s.maps t' = some m') (hne : t' ≠ t) : Disjoint (m.live + m.old) (m'.live + m'.old) :=
  Multiset.disjoint_left.2 fun {x} hx => ((h.apart t m hm).2 x hx).2 t' m' hm' hne

/-- What the calls on a map leave of the snapshots: all but those that have a location among the discarded ones. -/
theorem mapStep.snaps {C : Cfg K} (h : mapStep C F s t m o s' c) (hc : c.on = some t) (hr : s.snaps r = some sn)
    (hd : (c = .prune t → Disjoint sn.locs m.old) ∧ (c = .discard t → Disjoint sn.locs (m.live + m.old))) : s'.snaps r = some sn := by
  cases c with
  | op _ op =>
    obtain ⟨-, ⟨h1, ⟨-, rfl⟩ | ⟨-, m', h3, rfl⟩⟩ | ⟨e, h1, h2, h3, rfl⟩ | ⟨e, h1, h2, rfl⟩⟩ := h
    exacts [hr, hr, hr, hr]
  | flush _ b =>
    obtain ⟨-, -, new, ⟨r', -, -, -, h1, -, rfl⟩ | ⟨-, -, -, -, rfl⟩⟩ := h
    · by_cases he : r = r'
      · subst he
        rw [h1 sn hr]
        simp [St.snap]
      · simp only [St.snap, if_neg he]
        exact hr
    · exact hr
  | purge _ b => obtain ⟨-, rfl, -⟩ := h; exact hr
  | touch _ => obtain ⟨-, ⟨-, rfl⟩ | ⟨e, -, -, rfl | ⟨m', h1, rfl⟩⟩⟩ := h <;> exact hr
  | touchItem _ i => obtain ⟨-, ⟨-, -, rfl⟩ | ⟨n, -, -, -, m', h1, -, rfl⟩ | ⟨e, -, -, rfl⟩⟩ := h; exacts [hr, hr, hr]
  | prune t' =>
    simp only [Call.on, Option.some.injEq] at hc
    have hd := hd.1 (by rw [hc])
    obtain ⟨-, ⟨-, -, -, rfl⟩ | ⟨h0, h1, -, left, h2, -, rfl⟩⟩ := h
    · exact forget_keep (s := s.set t _) hr hd
    · exact forget_keep (s := s.set t _) hr (Multiset.disjoint_left.2 fun {x} hx hg => Multiset.disjoint_left.1 hd hx (by rw [← h2]; exact Multiset.mem_add.2 (.inl hg)))
  | discard t' =>
    simp only [Call.on, Option.some.injEq] at hc
    have hd := hd.2 (by rw [hc])
    obtain ⟨-, -, -, -, rfl⟩ := h
    exact forget_keep (s := s.set t none) hr hd
  | layout _ => obtain ⟨-, rfl, -⟩ := h; exact hr
  | dimensions _ => obtain ⟨-, rfl, -⟩ := h; exact hr
  | dump _ _ => obtain ⟨-, rfl, -⟩ := h; exact hr
  | location _ => obtain ⟨-, -, rfl⟩ := h; exact hr
  | new _ => exact h.elim
  | old _ _ => exact h.elim
  | evict _ => exact h.elim
  | limits _ _ => exact h.elim
  | restart => exact h.elim

/-- Calls when the maps are not to be relied on. -/
theorem Step.broken (h : Step cfg F s c o s') (hs : s.sound = false) (hc : c ≠ .restart) : s' = { s with exact := false } := by
  have h2 := h.2
  cases c <;> first | exact absurd rfl hc | (simp only [hs] at h2; rw [hs]; exact h2.2.2)

/-- A snapshot stays unless the map it was taken of is pruned or discarded; Prune does it no harm either as long as it shows the
current contents of that map. -/
theorem Step.snaps (h : Step cfg F s c o s') (hS : Sane s) (hr : s.snaps r = some sn)
    (hp : c = .prune sn.map → s.sound = true → ∃ m, s.maps sn.map = some m ∧ m.saved = some r) (hd : c ≠ .discard sn.map) : s'.snaps r = some sn := by
  cases hs : s.sound with
  | false =>
    by_cases hc : c = .restart
    · subst hc
      obtain ⟨-, -, rfl⟩ := h.2
      exact hr
    · rw [h.broken hs hc]
      exact hr
  | true =>
    rcases h.cases hs with ⟨t, m, h1, h2, h3⟩ | ⟨t, -, -, -, rfl⟩ | ⟨t, r, sn, -, -, -, ⟨-, rfl⟩ | ⟨e, -, -, rfl⟩⟩ | ⟨-, -, -, rfl⟩ | ⟨-, -, -, rfl⟩
    · refine h3.snaps h1 hr ⟨fun hc => ?_, fun hc => ?_⟩
      · by_cases ht : sn.map = t
        · obtain ⟨m', k1, k2⟩ := hp (by rw [hc, ht]) hs
          have := hS.saved _ m' r k1 k2
          rw [ht, h2, Option.some.injEq] at k1
          subst k1
          rw [hr, Option.some.injEq] at this
          rw [this]
          exact hS.live_old h2
        · exact Multiset.disjoint_left.2 fun {x} hx ho => ht (hS.owned.mine r sn x t m hr hx h2 (.inr ho))
      · by_cases ht : sn.map = t
        · exact absurd (by rw [hc, ht]) hd
        · exact Multiset.disjoint_left.2 fun {x} hx ho => ht (hS.owned.mine r sn x t m hr hx h2 (Multiset.mem_add.1 ho))
    all_goals exact hr

/-- What a call on a map leaves: the map as it was, or changed, or stored, or with fewer old locations, or closed. -/
theorem mapStep.map {C : Cfg K} (h : mapStep C F s t m o s' c) (hm : s.maps t = some m) :
    (∃ m', s'.maps t = some m' ∧ (m'.saved = none ∨ (m'.saved = m.saved ∧ m'.live = m.live ∧ m'.items = m.items) ∨
      ∃ r, m'.saved = some r ∧ s'.snaps r = some ⟨t, m'.items, m'.live⟩)) ∨ s'.maps t = none := by
  have key : ∀ m' : Map K V, (s.set t (some m')).maps t = some m' := fun m' => set_same _ _ _
  cases c with
  | op _ op =>
    obtain ⟨-, ⟨h1, ⟨-, rfl⟩ | ⟨-, m', h3, rfl⟩⟩ | ⟨e, h1, h2, h3, rfl⟩ | ⟨e, h1, h2, rfl⟩⟩ := h
    · exact .inl ⟨m, hm, .inr (.inl ⟨rfl, rfl, rfl⟩)⟩
    · exact .inl ⟨m', key _, .inl h3.saved⟩
    · exact .inl ⟨m, hm, .inr (.inl ⟨rfl, rfl, rfl⟩)⟩
    · exact .inl ⟨m, hm, .inr (.inl ⟨rfl, rfl, rfl⟩)⟩
  | flush _ b =>
    obtain ⟨-, -, new, ⟨r', -, -, -, h1, -, rfl⟩ | ⟨-, h1, -, rfl⟩⟩ := h
    · exact .inl ⟨_, key _, .inr (.inr ⟨r', rfl, by simp [St.snap]⟩)⟩
    · exact .inl ⟨_, key _, .inl h1⟩
  | purge _ b => obtain ⟨-, rfl, -⟩ := h; exact .inl ⟨m, hm, .inr (.inl ⟨rfl, rfl, rfl⟩)⟩
  | touch _ =>
    obtain ⟨-, ⟨-, rfl⟩ | ⟨e, -, -, rfl | ⟨m', h1, rfl⟩⟩⟩ := h
    · exact .inl ⟨_, key _, .inl rfl⟩
    · exact .inl ⟨m, hm, .inr (.inl ⟨rfl, rfl, rfl⟩)⟩
    · exact .inl ⟨_, key _, .inl h1.saved⟩
  | touchItem _ i =>
    obtain ⟨-, ⟨-, -, rfl⟩ | ⟨n, -, -, -, m', h1, -, rfl⟩ | ⟨e, -, -, rfl⟩⟩ := h
    · exact .inl ⟨m, hm, .inr (.inl ⟨rfl, rfl, rfl⟩)⟩
    · exact .inl ⟨_, key _, .inl h1.saved⟩
    · exact .inl ⟨m, hm, .inr (.inl ⟨rfl, rfl, rfl⟩)⟩
  | prune t' =>
    obtain ⟨-, ⟨-, -, -, rfl⟩ | ⟨h0, h1, -, left, h2, -, rfl⟩⟩ := h
    · exact .inl ⟨_, key _, .inr (.inl ⟨rfl, rfl, rfl⟩)⟩
    · exact .inl ⟨_, key _, .inr (.inl ⟨rfl, rfl, rfl⟩)⟩
  | discard t' =>
    obtain ⟨-, -, -, -, rfl⟩ := h
    exact .inr (set_same _ _ _)
  | layout _ => obtain ⟨-, rfl, -⟩ := h; exact .inl ⟨m, hm, .inr (.inl ⟨rfl, rfl, rfl⟩)⟩
  | dimensions _ => obtain ⟨-, rfl, -⟩ := h; exact .inl ⟨m, hm, .inr (.inl ⟨rfl, rfl, rfl⟩)⟩
  | dump _ _ => obtain ⟨-, rfl, -⟩ := h; exact .inl ⟨m, hm, .inr (.inl ⟨rfl, rfl, rfl⟩)⟩
  | location _ => obtain ⟨-, -, rfl⟩ := h; exact .inl ⟨m, hm, .inr (.inl ⟨rfl, rfl, rfl⟩)⟩
  | new _ => exact h.elim
  | old _ _ => exact h.elim
  | evict _ => exact h.elim
  | limits _ _ => exact h.elim
  | restart => exact h.elim

theorem Step.sane (h : Step cfg F s c o s') (hp : Pre cfg F s c) (hS : Sane s) : Sane s' := by
  refine ⟨h.1.2.2.1, h.1.2.2.2.1, h.1.2.2.2.2, ?_⟩
  cases hs : s.sound with
  | false =>
    by_cases hc : c = .restart
    · subst hc
      obtain ⟨-, -, rfl⟩ := h.2
      exact fun t m r h => by cases h
    · rw [h.broken hs hc]
      exact hS.saved
  | true =>
    rcases h.cases hs with ⟨t, m, h1, h2, h3⟩ | ⟨t, -, -, -, rfl⟩ | ⟨t, r, sn, rfl, -, hsn, ⟨-, rfl⟩ | ⟨e, -, -, rfl⟩⟩ | ⟨-, -, -, rfl⟩ | ⟨-, -, -, rfl⟩
    · intro t' m' r' hm' hr'
      by_cases ht : t' = t
      · subst ht
        rcases h3.map h2 with ⟨m2, k1, k2⟩ | k1
        · rw [hm', Option.some.injEq] at k1
          subst k1
          rcases k2 with k2 | ⟨k2, k3, k4⟩ | ⟨r2, k2, k3⟩
          · rw [hr'] at k2; cases k2
          · rw [k3, k4]
            refine h3.snaps h1 (hS.saved t' m r' h2 (k2.symm.trans hr')) ⟨fun _ => hS.live_old h2, fun hc => ?_⟩
            subst hc
            obtain ⟨-, -, -, -, rfl⟩ := h3
            rw [show ((s.set t' none).forget _).maps t' = none from set_same _ _ _] at hm'
            cases hm'
          · rw [hr', Option.some.injEq] at k2
            subst k2
            exact k3
        · rw [hm'] at k1; cases k1
      · rw [h3.other ht] at hm'
        have hd := hS.other hm' h2 (Ne.symm ht)
        refine h3.snaps h1 (hS.saved t' m' r' hm' hr') ⟨fun _ => ?_, fun _ => ?_⟩
        · exact Multiset.disjoint_left.2 fun {x} hx hy => Multiset.disjoint_left.1 hd (Multiset.mem_add.2 (.inl hx)) (Multiset.mem_add.2 (.inr hy))
        · exact Multiset.disjoint_left.2 fun {x} hx hy => Multiset.disjoint_left.1 hd (Multiset.mem_add.2 (.inl hx)) hy
    · intro t' m' r' hm' hr'
      by_cases ht : t' = t
      · subst ht
        rw [set_same, Option.some.injEq] at hm'
        subst hm'
        cases hr'
      · rw [set_other _ ht] at hm'
        exact hS.saved t' m' r' hm' hr'
    · intro t' m' r' hm' hr'
      by_cases ht : t' = t
      · subst ht
        rw [show (St.maps { s.set t' _ with lost := _ } t') = _ from set_same s t' _, Option.some.injEq] at hm'
        subst hm'
        simp only [Option.some.injEq] at hr'
        subst hr'
        simp only [Pre, hs, if_true] at hp
        obtain ⟨-, sn', k1, k2⟩ := hp
        rw [hsn, Option.some.injEq] at k1
        subst k1
        show s.snaps r = _
        rw [hsn, ← k2]
      · rw [show (St.maps { s.set t _ with lost := _ } t') = _ from set_other s ht _] at hm'
        exact hS.saved t' m' r' hm' hr'
    · exact hS.saved
    · exact hS.saved
    · exact fun t m r h => by cases h

theorem Steps.sane : ∀ {l : List (Call K V × Faults × Obs K V)} {s s' : St K V}, Steps cfg s l s' → Sane s → Sane s'
  | [], _, _, h, hs => by cases h; exact hs
  | (c, F, o) :: l, s, s', ⟨s1, h1, h2, h3⟩, hs => Steps.sane h3 (h2.sane h1 hs)

/-- A snapshot stays as long as its map is neither pruned nor discarded. -/
theorem Steps.snaps : ∀ {l : List (Call K V × Faults × Obs K V)} {s s' : St K V}, Steps cfg s l s' → Sane s → s.snaps r = some sn →
    (∀ x ∈ l, x.1 ≠ .prune sn.map ∧ x.1 ≠ .discard sn.map) → s'.snaps r = some sn
  | [], _, _, h, _, hr, _ => by cases h; exact hr
  | (c, F, o) :: l, s, s', ⟨s1, h1, h2, h3⟩, hs, hr, hc =>
      Steps.snaps h3 (h2.sane h1 hs) (h2.snaps hs hr (fun h => absurd h (hc (c, F, o) (by simp)).1) (hc (c, F, o) (by simp)).2) (fun x hx => hc x (by simp [hx]))

/-- Calls that leave map `t` as it is, or store it, or discard old locations of it: those on other maps, and all on `t` that do not
change anything in it. Operations that read are among them, those that write are not, whatever they are given. -/
def Leaves (t : TreeId) : Call K V → Prop
  | .op t' (.put _ _) | .op t' (.patchByKey _ _) | .op t' (.patchByIndex _ _) | .op t' (.deleteByKey _) | .op t' (.deleteByIndex _) => t' ≠ t
  | .touch t' | .touchItem t' _ | .discard t' => t' ≠ t
  | .restart => False
  | _ => True

/-- The same for a map that contains these items: operations that do not change them, for what they are given, are among them. -/
def Idle (cmp : Compare K) (t : TreeId) (l : List (K × V)) (c : Call K V) : Prop := Leaves t c ∨ ∃ op, c = .op t op ∧ readOnly cmp l op

/-- Such calls leave the snapshot where it is. -/
theorem Step.leaves (h : Step cfg F s c o s') (hp : Pre cfg F s c) (hss : s.sound = true) (hs' : s'.sound = true) (hl : Idle (cfg t).cmp t m.items c) (hm : s.maps t = some m) (hr : m.saved = some r) :
    ∃ m', s'.maps t = some m' ∧ m'.saved = some r ∧ m'.items = m.items ∧ m'.live = m.live := by
  by_cases hro : ∃ op, c = .op t op ∧ readOnly (cfg t).cmp m.items op
  · obtain ⟨op, rfl, hro⟩ := hro
    obtain ⟨-, ⟨k1, ⟨-, rfl⟩ | ⟨k2, m', k3, rfl⟩⟩ | ⟨e, k1, k2, k3, rfl⟩ | ⟨e, k1, k2, rfl⟩⟩ := h.on hss rfl hm
    · exact ⟨m, hm, hr, rfl, rfl⟩
    · exact absurd hro k2
    · exact ⟨m, hm, hr, rfl, rfl⟩
    · cases hs'
  replace hl := hl.resolve_right hro
  rcases h.cases hss with ⟨t', m', h1, h2, h3⟩ | ⟨t', rfl, -, -, rfl⟩ | ⟨t', r', sn, rfl, -, hsn, ⟨-, rfl⟩ | ⟨e, -, -, rfl⟩⟩ | ⟨-, -, -, rfl⟩ | ⟨rfl, -, -, rfl⟩
  · by_cases ht : t' = t
    · subst ht
      rw [hm, Option.some.injEq] at h2
      subst h2
      have key : ∀ m' : Map K V, (s.set t' (some m')).maps t' = some m' := fun m' => set_same _ _ _
      cases c with
      | op t2 op =>
        simp only [Call.on, Option.some.injEq] at h1
        subst h1
        have hro : readOnly (cfg t2).cmp m.items op := by cases op <;> first | exact absurd rfl hl | trivial
        obtain ⟨-, ⟨k1, ⟨-, rfl⟩ | ⟨k2, m', k3, rfl⟩⟩ | ⟨e, k1, k2, k3, rfl⟩ | ⟨e, k1, k2, rfl⟩⟩ := h3
        · exact ⟨m, hm, hr, rfl, rfl⟩
        · exact absurd hro k2
        · exact ⟨m, hm, hr, rfl, rfl⟩
        · cases hs'
      | flush _ b =>
        obtain ⟨-, -, new, ⟨r', -, -, k1, -, -, rfl⟩ | ⟨-, k1, -, rfl⟩⟩ := h3
        · obtain ⟨rfl, rfl⟩ := k1 r hr
          exact ⟨_, key _, rfl, rfl, by simp⟩
        · rw [hr] at k1; cases k1
      | purge _ b => obtain ⟨-, rfl, -⟩ := h3; exact ⟨m, hm, hr, rfl, rfl⟩
      | touch t2 => simp only [Call.on, Option.some.injEq] at h1; exact absurd h1 hl
      | touchItem t2 i => simp only [Call.on, Option.some.injEq] at h1; exact absurd h1 hl
      | prune t2 =>
        obtain ⟨-, ⟨-, -, -, rfl⟩ | ⟨h0, h1, -, left, h2, -, rfl⟩⟩ := h3
        · exact ⟨_, key _, hr, rfl, rfl⟩
        · exact ⟨_, key _, hr, rfl, rfl⟩
      | discard t2 => simp only [Call.on, Option.some.injEq] at h1; exact absurd h1 hl
      | layout _ => obtain ⟨-, rfl, -⟩ := h3; exact ⟨m, hm, hr, rfl, rfl⟩
      | dimensions _ => obtain ⟨-, rfl, -⟩ := h3; exact ⟨m, hm, hr, rfl, rfl⟩
      | dump _ _ => obtain ⟨-, rfl, -⟩ := h3; exact ⟨m, hm, hr, rfl, rfl⟩
      | location _ => obtain ⟨-, -, rfl⟩ := h3; exact ⟨m, hm, hr, rfl, rfl⟩
      | new _ => exact h3.elim
      | old _ _ => exact h3.elim
      | evict _ => exact h3.elim
      | limits _ _ => exact h3.elim
      | restart => exact h3.elim
    · exact ⟨m, by rw [h3.other (Ne.symm ht)]; exact hm, hr, rfl, rfl⟩
  · have ht : t ≠ t' := by
      rintro rfl
      simp only [Pre, hss, if_true] at hp
      rw [hm] at hp; cases hp
    exact ⟨m, by rw [set_other _ ht]; exact hm, hr, rfl, rfl⟩
  · have ht : t ≠ t' := by
      rintro rfl
      simp only [Pre, hss, if_true] at hp
      rw [hm] at hp; cases hp.1
    exact ⟨m, by show (s.set t' _).maps t = _; rw [set_other _ ht]; exact hm, hr, rfl, rfl⟩
  · exact ⟨m, hm, hr, rfl, rfl⟩
  · exact ⟨m, hm, hr, rfl, rfl⟩
  · exact hl.elim

theorem Step.sound_back (h : Step cfg F s c o s') (hs' : s'.sound = true) (hc : c ≠ .restart) : s.sound = true := by
  cases hs : s.sound with
  | true => rfl
  | false => rw [h.broken hs hc, ← hs'] at *; exact hs.symm

theorem Idle.not_restart {cmp : Compare K} {l : List (K × V)} (h : Idle cmp t l c) : c ≠ .restart := by
  rintro rfl
  rcases h with h | ⟨_, h, -⟩
  · exact h
  · cases h

theorem Idle.not_discard {cmp : Compare K} {l : List (K × V)} (h : Idle cmp t l c) : c ≠ .discard t := by
  rintro rfl
  rcases h with h | ⟨_, h, -⟩
  · exact h rfl
  · cases h

theorem Steps.sound_back : ∀ {l : List (Call K V × Faults × Obs K V)} {s s' : St K V}, Steps cfg s l s' → s'.sound = true → (∀ x ∈ l, x.1 ≠ .restart) → s.sound = true
  | [], _, _, h, hs, _ => by cases h; exact hs
  | (c, F, o) :: l, s, s', ⟨s1, _, h2, h3⟩, hs, hk => h2.sound_back (Steps.sound_back h3 hs fun x hx => hk x (by simp [hx])) (hk (c, F, o) (by simp))

/-- Such calls leave the snapshot where it is, and also what is stored of it, even if they fail. -/
theorem Steps.leaves {r : Ref} {I : List (K × V)} {D : Multiset Ref} : ∀ {l : List (Call K V × Faults × Obs K V)} {s s' : St K V}, Steps cfg s l s' → Sane s → (∀ x ∈ l, Idle (cfg t).cmp t I x.1) →
    s.snaps r = some ⟨t, I, D⟩ → (s.sound = true → ∃ m, s.maps t = some m ∧ m.saved = some r ∧ m.items = I ∧ m.live = D) →
    s'.snaps r = some ⟨t, I, D⟩ ∧ (s'.sound = true → ∃ m, s'.maps t = some m ∧ m.saved = some r ∧ m.items = I ∧ m.live = D)
  | [], _, _, h, _, _, hr, hm => by cases h; exact ⟨hr, hm⟩
  | (c, F, o) :: l, s, s', ⟨s1, h1, h2, h3⟩, hS, hk, hr, hm => by
      have hi := hk (c, F, o) (by simp)
      refine Steps.leaves h3 (h2.sane h1 hS) (fun x hx => hk x (by simp [hx])) ?_ fun hs1 => ?_
      · refine h2.snaps hS hr (fun _ hs => ?_) hi.not_discard
        obtain ⟨m, k1, k2, -⟩ := hm hs
        exact ⟨m, k1, k2⟩
      · have hs := h2.sound_back hs1 hi.not_restart
        obtain ⟨m, k1, k2, rfl, rfl⟩ := hm hs
        exact h2.leaves h1 hs hs1 hi k1 k2

end SM.Api

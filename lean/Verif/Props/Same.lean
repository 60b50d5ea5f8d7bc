import Verif.Props.Snap

/-!
The specification leaves no choice as far as it matters: what was seen of the calls of a history determines which maps are open, what
they contain and what the snapshots are; hence also which calls may be made.
-/

namespace SM.Api

open Spec (Op Ans AgreesE Refused stepE has)
open BT (Ref TreeId Out)

variable {K V : Type} {cfg : TreeId → Cfg K} {F : Faults} {s s' : St K V} {c : Call K V} {o : Obs K V} {t : TreeId} {m : Map K V} {r : Ref} {sn : Snap K V}

/-- What is in a map, and whether a Prune of it has failed. -/
def Map.face (m : Map K V) : List (K × V) × Nat := (m.items, m.fails)

/-- Two states agree on the maps and the snapshots. -/
structure Same (s₁ s₂ : St K V) : Prop where
  sound : s₁.sound = s₂.sound
  maps : ∀ t, (s₁.maps t).map Map.face = (s₂.maps t).map Map.face
  snaps : s₁.snaps = s₂.snaps

theorem Same.refl (s : St K V) : Same s s := ⟨rfl, fun _ => rfl, rfl⟩
theorem Same.symm {s₁ s₂ : St K V} (h : Same s₁ s₂) : Same s₂ s₁ := ⟨h.sound.symm, fun t => (h.maps t).symm, h.snaps.symm⟩

theorem Same.closed {s₁ s₂ : St K V} (h : Same s₁ s₂) (hm : s₁.maps t = none) : s₂.maps t = none := by
  have := h.maps t
  rw [hm] at this
  cases h2 : s₂.maps t with
  | none => rfl
  | some x => rw [h2] at this; cases this

theorem Same.opened {s₁ s₂ : St K V} (h : Same s₁ s₂) (hm : s₁.maps t = some m) : ∃ m', s₂.maps t = some m' ∧ m'.items = m.items ∧ m'.fails = m.fails := by
  have := h.maps t
  rw [hm] at this
  cases h2 : s₂.maps t with
  | none => rw [h2] at this; cases this
  | some x =>
    rw [h2] at this
    simp only [Option.map_some, Option.some.injEq, Map.face, Prod.mk.injEq] at this
    exact ⟨x, rfl, this.1.symm, this.2.symm⟩

theorem Same.pre {s₁ s₂ : St K V} (h : Same s₁ s₂) (hp : Pre cfg F s₁ c) : Pre cfg F s₂ c := by
  have hs := h.sound
  cases hss : s₁.sound with
  | false =>
    rw [hss] at hs
    cases c <;> simp only [Pre, hss, ← hs] at hp ⊢ <;> simp_all
  | true =>
    rw [hss] at hs
    have key : ∀ t, (∃ m, s₁.maps t = some m) → ∃ m, s₂.maps t = some m := fun t ⟨m, hm⟩ => by
      obtain ⟨m', h1, -⟩ := h.opened hm
      exact ⟨m', h1⟩
    cases c with
    | op t op =>
      cases op with
      | put k x =>
        simp only [Pre, hss, ← hs, if_true] at hp ⊢
        obtain ⟨m, hm, hk⟩ := hp
        obtain ⟨m', h1, h2, -⟩ := h.opened hm
        exact ⟨m', h1, by rw [h2]; exact hk⟩
      | _ =>
        simp only [Pre, hss, ← hs, if_true] at hp ⊢
        exact key _ hp
    | discard t =>
      simp only [Pre, hss, ← hs, if_true] at hp ⊢
      obtain ⟨⟨m, hm, hT⟩, hp⟩ := hp
      obtain ⟨m', h1, -, h2⟩ := h.opened hm
      exact ⟨⟨m', h1, h2.trans hT⟩, hp⟩
    | prune t =>
      simp only [Pre, hss, ← hs, if_true] at hp ⊢
      obtain ⟨m, hm, hT⟩ := hp
      obtain ⟨m', h1, -, h2⟩ := h.opened hm
      exact ⟨m', h1, h2.trans hT⟩
    | new t =>
      simp only [Pre, hss, ← hs, if_true] at hp ⊢
      exact h.closed hp
    | old t r =>
      simp only [Pre, hss, ← hs, if_true] at hp ⊢
      exact ⟨h.closed hp.1, by rw [← h.snaps]; exact hp.2⟩
    | evict _ => simp only [Pre, ← hs, if_true]
    | limits _ _ => simp only [Pre, ← hs, if_true]
    | restart => trivial
    | _ =>
      simp only [Pre, hss, ← hs, if_true] at hp ⊢
      exact key _ hp

/-- One map is set in both. -/
theorem Same.set {s₁ s₂ : St K V} (h : Same s₁ s₂) {x y : Option (Map K V)} (hx : x.map Map.face = y.map Map.face) : Same (s₁.set t x) (s₂.set t y) := by
  refine ⟨h.sound, fun t' => ?_, h.snaps⟩
  by_cases ht : t' = t
  · subst ht; rw [set_same, set_same]; exact hx
  · rw [set_other _ ht, set_other _ ht]; exact h.maps t'

theorem Same.set_left {s₁ s₂ : St K V} (h : Same s₁ s₂) {m m' : Map K V} (hm : s₁.maps t = .some m) (hx : m'.items = m.items) (hf : m'.fails = m.fails) : Same (s₁.set t (.some m')) s₂ := by
  refine ⟨h.sound, fun t' => ?_, h.snaps⟩
  by_cases ht : t' = t
  · subst ht; rw [set_same, Option.map_some, Map.face, hx, hf, ← h.maps t', hm]; rfl
  · rw [set_other _ ht]; exact h.maps t'

theorem Same.forget {s₁ s₂ : St K V} (h : Same s₁ s₂) (D : Multiset Ref) : Same (s₁.forget D) (s₂.forget D) :=
  ⟨h.sound, h.maps, by simp only [St.forget, h.snaps]⟩

/-- A call on a map that leaves its items. -/
theorem Changed.same {s₁ s₂ : St K V} {m' : Map K V} (h : Same s₁ s₂) (hm : s₁.maps t = some m) (hc : Changed m m' m.items) : Same (s₁.set t (some m')) s₂ :=
  h.set_left hm hc.items hc.fails

theorem refused_key {cmp : Compare K} {op : Op K V} {e : Err} (h : Refused cmp op e) : ¬isDeleteByIndex op := by
  obtain ⟨k, h1, -⟩ := h
  cases op <;> simp_all [Op.key?, isDeleteByIndex]

/-- The outcome of an operation. -/
theorem opStep.same {C : Cfg K} {s₁ s₂ s₁' s₂' : St K V} {m₁ m₂ : Map K V} {op : Op K V} (hS : Same s₁ s₂) (hm₁ : s₁.maps t = some m₁) (hm₂ : s₂.maps t = some m₂)
    (hi : m₁.items = m₂.items) (hF : m₁.fails = m₂.fails) (hs : s₁.sound = true) (h₁ : opStep C F s₁ t m₁ op o s₁') (h₂ : opStep C F s₂ t m₂ op o s₂') : Same s₁' s₂' := by
  obtain ⟨-, h₁⟩ := h₁
  obtain ⟨-, h₂⟩ := h₂
  rw [← hi] at h₂
  -- an error in the compare function leaves the items
  have herr : ∀ e, Wanted C.cmp op (.err e) (stepE C.cmp m₁.items op).1 → (stepE C.cmp m₁.items op).2 = m₁.items ∧ ¬isDeleteByIndex op := by
    rintro e (⟨a, h, -⟩ | ⟨e', -, h, h'⟩)
    · cases h
    · exact ⟨BT.stepE_none h, refused_key h'⟩
  have hdone : ∀ e, (stepE C.cmp m₁.items op).1 = some (.done true) → ¬Wanted C.cmp op (.ok (.ans (.done true, some e))) (stepE C.cmp m₁.items op).1 := by
    rintro e h (⟨a, h1, h2⟩ | ⟨e', h1, -⟩)
    · cases h1
      rw [h] at h2
      exact h2
    · cases h1
  -- both did what is wanted
  have hw : ∀ {s₁ s₁' : St K V} {m : Map K V}, s₁.maps t = some m → m.items = m₁.items →
      (((stepE C.cmp m₁.items op).2 = m₁.items ∧ s₁' = s₁) ∨ (¬readOnly C.cmp m₁.items op ∧ ∃ m', Changed m m' (stepE C.cmp m₁.items op).2 ∧ s₁' = s₁.set t (some m'))) →
      s₁'.sound = s₁.sound ∧ s₁'.snaps = s₁.snaps ∧ (∀ t', t' ≠ t → s₁'.maps t' = s₁.maps t') ∧ (s₁'.maps t).map Map.face = some ((stepE C.cmp m₁.items op).2, m.fails) := by
    rintro s₁ s₁' m hm he (⟨h1, rfl⟩ | ⟨-, m', h1, rfl⟩)
    · exact ⟨rfl, rfl, fun _ _ => rfl, by rw [hm, h1, Option.map_some, Map.face, he]⟩
    · exact ⟨rfl, rfl, fun t' ht => set_other _ ht _, by rw [set_same, Option.map_some, Map.face, h1.items, h1.fails]⟩
  -- one failed, the other did not
  have hx : ∀ {s₁ s₂ s₂' : St K V} {m : Map K V}, Same s₁ s₂ → s₂.maps t = some m → m.items = m₁.items → ∀ e, o.out = .err e → Wanted C.cmp op o.out (stepE C.cmp m₁.items op).1 →
      (((stepE C.cmp m₁.items op).2 = m₁.items ∧ s₂' = s₂) ∨ (¬readOnly C.cmp m₁.items op ∧ ∃ m', Changed m m' (stepE C.cmp m₁.items op).2 ∧ s₂' = s₂.set t (some m'))) → Same s₁ s₂' := by
    intro s₁ s₂ s₂' m hS hm he e h1 h2 h3
    rw [h1] at h2
    obtain ⟨k, -⟩ := herr e h2
    rcases h3 with ⟨-, rfl⟩ | ⟨-, m', h3, rfl⟩
    · exact hS
    · exact (hS.symm.set_left hm (by rw [h3.items, k, he]) h3.fails).symm
  rcases h₁ with ⟨a1, a2⟩ | ⟨e, a1, a2, a3, rfl⟩ | ⟨e, a1, a2, rfl⟩ <;> rcases h₂ with ⟨b1, b2⟩ | ⟨e', b1, b2, b3, rfl⟩ | ⟨e', b1, b2, rfl⟩
  · obtain ⟨p1, p2, p3, p4⟩ := hw hm₁ rfl a2
    rw [hi] at b2
    rw [← hi] at b2
    obtain ⟨q1, q2, q3, q4⟩ := hw hm₂ hi.symm b2
    refine ⟨by rw [p1, q1, hS.sound], fun t' => ?_, by rw [p2, q2, hS.snaps]⟩
    by_cases ht : t' = t
    · subst ht; rw [p4, q4, hF]
    · rw [p3 t' ht, q3 t' ht]; exact hS.maps t'
  · exact (hx hS.symm hm₁ rfl e' b1 a1 a2).symm
  · rcases b2 with ⟨b2, b3⟩ | ⟨b2, b3, b4⟩
    · rw [b2] at a1; exact absurd b3 (herr _ a1).2
    · rw [b2] at a1; exact absurd a1 (hdone _ b4)
  · exact hx hS hm₂ hi.symm e a1 b1 b2
  · exact hS
  · rcases b2 with ⟨b2, b4⟩ | ⟨b2, b4, -⟩
    · exact absurd b4 a3
    · rw [a1] at b2; cases b2
  · rcases a2 with ⟨a2, a3⟩ | ⟨a2, a3, a4⟩
    · rw [a2] at b1; exact absurd a3 (herr _ b1).2
    · rw [a2] at b1; exact absurd b1 (hdone _ a4)
  · rcases a2 with ⟨a2, a4⟩ | ⟨a2, a4, -⟩
    · exact absurd a4 b3
    · rw [b1] at a2; cases a2
  · exact ⟨rfl, hS.maps, hS.snaps⟩

theorem nodup_eq {A B : Multiset Ref} (hA : A.Nodup) (hB : B.Nodup) (h : ∀ x, x ∈ A ↔ x ∈ B) : A = B := (Multiset.Nodup.ext hA hB).2 h

/-- The outcome of a call on a map. -/
theorem mapStep.same {C : Cfg K} {s₁ s₂ s₁' s₂' : St K V} {m₁ m₂ : Map K V} (hS : Same s₁ s₂) (hm₁ : s₁.maps t = some m₁) (hm₂ : s₂.maps t = some m₂)
    (hi : m₁.items = m₂.items) (hF : m₁.fails = m₂.fails) (hs : s₁.sound = true) (ha₁ : s₁'.Apart) (ha₂ : s₂'.Apart) (h₁ : mapStep C F s₁ t m₁ o s₁' c) (h₂ : mapStep C F s₂ t m₂ o s₂' c) : Same s₁' s₂' := by
  cases c with
  | op _ op => exact opStep.same hS hm₁ hm₂ hi hF hs h₁ h₂
  | flush _ b =>
    obtain ⟨-, -, n1, ⟨r1, a1, -, -, -, ⟨-, a2⟩, rfl⟩ | ⟨a1, -, -, rfl⟩⟩ := h₁ <;> obtain ⟨-, -, n2, ⟨r2, b1, -, -, -, ⟨-, b2⟩, rfl⟩ | ⟨b1, -, -, rfl⟩⟩ := h₂
    · rw [a1] at b1
      cases b1
      have e : m₁.live + n1 = m₂.live + n2 := by
        refine nodup_eq ?_ ?_ fun x => (a2 x).trans (b2 x).symm
        · exact Multiset.nodup_of_le (Multiset.le_add_right _ _) (ha₁ t _ (set_same s₁ t _)).1
        · exact Multiset.nodup_of_le (Multiset.le_add_right _ _) (ha₂ t _ (set_same s₂ t _)).1
      have := hS.set (t := t) (x := some { m₁ with live := m₁.live + n1, saved := some r1 }) (y := some { m₂ with live := m₂.live + n2, saved := some r1 }) (by simp [Map.face, hi, hF])
      refine ⟨this.sound, this.maps, ?_⟩
      simp only [St.snap, St.set, hS.snaps, hi, e]
    · rcases b1 with ⟨b1, -⟩ | ⟨b1, -⟩ <;> (rw [a1] at b1; cases b1)
    · rcases a1 with ⟨a1, -⟩ | ⟨a1, -⟩ <;> (rw [a1] at b1; cases b1)
    · exact hS.set (by simp [Map.face, hi, hF])
  | purge _ b => obtain ⟨-, rfl, -⟩ := h₁; obtain ⟨-, rfl, -⟩ := h₂; exact hS
  | touch _ =>
    have key : ∀ {s s' : St K V} {m : Map K V}, s.maps t = some m → ((o.out = .ok .unit ∧ s' = s.set t (some { m with live := 0, old := m.old + m.live, saved := none })) ∨
       ∃ e, o.out = .err e ∧ F.reading e ∧ (s' = s ∨ ∃ m', Changed m m' m.items ∧ s' = s.set t (some m'))) → ∀ s₂, Same s s₂ → Same s' s₂ := by
      rintro s s' m hm (⟨-, rfl⟩ | ⟨e, -, -, rfl | ⟨m', h1, rfl⟩⟩) s₂ h
      · exact h.set_left hm rfl rfl
      · exact h
      · exact h1.same h hm
    exact key hm₁ h₁.2 _ (key hm₂ h₂.2 _ hS.symm).symm
  | touchItem _ i =>
    have key : ∀ {s s' : St K V} {m : Map K V}, s.maps t = some m → ((m.items.length ≤ i ∧ o.out = .ok (.index 0) ∧ s' = s) ∨
       (∃ n, i < n ∧ n ≤ m.items.length ∧ o.out = .ok (.index n) ∧ ∃ m', Changed m m' m.items ∧ m'.live ≤ m.live ∧ s' = s.set t (some m')) ∨
       ∃ e, o.out = .err e ∧ F.reading e ∧ s' = s) → ∀ s₂, Same s s₂ → Same s' s₂ := by
      rintro s s' m hm (⟨-, -, rfl⟩ | ⟨n, -, -, -, m', h1, -, rfl⟩ | ⟨e, -, -, rfl⟩) s₂ h
      · exact h
      · exact h1.same h hm
      · exact h
    exact key hm₁ h₁.2 _ (key hm₂ h₂.2 _ hS.symm).symm
  | prune _ =>
    obtain ⟨-, ⟨a1, -, a2, rfl⟩ | ⟨a1, -, -, left, a2, -, rfl⟩⟩ := h₁ <;> obtain ⟨-, ⟨b1, -, b2, rfl⟩ | ⟨b1, -, -, left', b2, -, rfl⟩⟩ := h₂
    · rw [← a2, ← b2]; exact (hS.set (by simp [Map.face, hi, hF])).forget _
    · rw [a1] at b1; cases b1
    · rw [a1] at b1; cases b1
    · exact (hS.set (by simp [Map.face, hi])).forget _
  | discard _ =>
    obtain ⟨-, -, a1, -, rfl⟩ := h₁
    obtain ⟨-, -, b1, -, rfl⟩ := h₂
    rw [← a1, ← b1]; exact (hS.set rfl).forget _
  | layout _ => obtain ⟨-, rfl, -⟩ := h₁; obtain ⟨-, rfl, -⟩ := h₂; exact hS
  | dimensions _ => obtain ⟨-, rfl, -⟩ := h₁; obtain ⟨-, rfl, -⟩ := h₂; exact hS
  | dump _ _ => obtain ⟨-, rfl, -⟩ := h₁; obtain ⟨-, rfl, -⟩ := h₂; exact hS
  | location _ => obtain ⟨-, -, rfl⟩ := h₁; obtain ⟨-, -, rfl⟩ := h₂; exact hS
  | new _ => exact h₁.elim
  | old _ _ => exact h₁.elim
  | evict _ => exact h₁.elim
  | limits _ _ => exact h₁.elim
  | restart => exact h₁.elim

theorem Step.same {s₁ s₂ s₁' s₂' : St K V} (hS : Same s₁ s₂) (h₁ : Step cfg F s₁ c o s₁') (h₂ : Step cfg F s₂ c o s₂') : Same s₁' s₂' := by
  by_cases hc : c = .restart
  · subst hc
    obtain ⟨-, -, rfl⟩ := h₁.2
    obtain ⟨-, -, rfl⟩ := h₂.2
    exact ⟨rfl, fun _ => rfl, hS.snaps⟩
  cases hs : s₁.sound with
  | false =>
    rw [h₁.broken hs hc, h₂.broken (hS.sound.symm.trans hs) hc]
    exact ⟨hS.sound, hS.maps, hS.snaps⟩
  | true =>
    have hs₂ := hS.sound.symm.trans hs
    rcases h₁.cases hs with ⟨t, m, h1, h2, h3⟩ | ⟨t, rfl, -, -, rfl⟩ | ⟨t, r, sn, rfl, -, hsn, hx⟩ | ⟨hx, -, -, rfl⟩ | ⟨rfl, -⟩
    · obtain ⟨m', k1, k2, k3⟩ := hS.opened h2
      exact h3.same hS h2 k1 k2.symm k3.symm hs h₁.1.2.2.1 h₂.1.2.2.1 (h₂.on hs₂ h1 k1)
    · have h4 := h₂.2
      simp only [hs₂, if_true] at h4
      obtain ⟨-, -, rfl⟩ := h4
      exact hS.set rfl
    · have h4 := h₂.2
      simp only [hs₂, if_true] at h4
      obtain ⟨-, sn', k1, k2⟩ := h4
      rw [← hS.snaps, hsn, Option.some.injEq] at k1
      subst k1
      rcases hx with ⟨a1, rfl⟩ | ⟨e, a1, -, rfl⟩ <;> rcases k2 with ⟨b1, rfl⟩ | ⟨e', b1, -, rfl⟩
      · have := hS.set (t := t) (x := some ⟨sn.items, sn.locs, 0, some r, 0⟩) (y := some ⟨sn.items, sn.locs, 0, some r, 0⟩) rfl
        exact ⟨this.sound, this.maps, this.snaps⟩
      · rw [a1] at b1; cases b1
      · rw [a1] at b1; cases b1
      · exact hS
    · have h4 := h₂.2
      rcases hx with ⟨x, rfl⟩ | ⟨a, b, rfl⟩ <;> simp only [hs₂, if_true] at h4 <;> obtain ⟨-, -, rfl⟩ := h4 <;> exact hS
    · exact absurd rfl hc

theorem Steps.same : ∀ {l : List (Call K V × Faults × Obs K V)} {s₁ s₂ s₁' s₂' : St K V}, Same s₁ s₂ → Steps cfg s₁ l s₁' → Steps cfg s₂ l s₂' → Same s₁' s₂'
  | [], _, _, _, _, hS, h₁, h₂ => by cases h₁; cases h₂; exact hS
  | (c, F, o) :: l, _, _, _, _, hS, ⟨_, _, k1, k2⟩, ⟨_, _, k3, k4⟩ => Steps.same (k1.same hS k3) k2 k4

/-- If there is one way to make the calls, they may be made. -/
theorem Steps.legal : ∀ {l : List (Call K V × Faults × Obs K V)} {s₁ s₂ s₁' : St K V}, Same s₁ s₂ → Steps cfg s₁ l s₁' → Legal cfg s₂ l
  | [], _, _, _, _, _ => trivial
  | (c, F, o) :: l, _, _, _, hS, ⟨_, k0, k1, k2⟩ => ⟨hS.pre k0, fun _ h => Steps.legal (k1.same hS h) k2⟩

end SM.Api

import Verif.BTree.Scene

/-!
What the specification of the B+Tree API (`Verif/Api.lean`) implies for the contents of one map, and the states that can be
reached. The first part does not mention the model.
-/

namespace SM.Api

open Spec (Op Ans AgreesE Refused stepE has)
open BT (Ref TreeId Out)

variable {K V : Type}

/-- A call that does not close map `t`. -/
def Keeps (t : TreeId) : Call K V → Prop
  | .discard t' => t' ≠ t
  | .restart => False
  | _ => True

/-- No callback that reads may fail. -/
def Faults.NoRead (F : Faults) : Prop := ¬F.getNode ∧ ¬F.codec

/-- Neither may DiscardNode. -/
def Faults.NoFault (F : Faults) : Prop := F.NoRead ∧ ¬F.discardNode

theorem Faults.NoRead.not {F : Faults} (h : F.NoRead) {e : Err} : ¬F.reading e := by
  rintro (⟨-, h1⟩ | ⟨-, h1⟩)
  exacts [h.1 h1, h.2 h1]

/-- The map a call is made on. -/
def Call.on : Call K V → Option TreeId
  | .op t _ | .flush t _ | .purge t _ | .touch t | .touchItem t _ | .prune t | .discard t | .layout t | .dimensions t | .location t | .dump t _ => some t
  | _ => none

section
variable {cfg : TreeId → Cfg K} {F : Faults} {s s' : St K V} {c : Call K V} {o : Obs K V} {t : TreeId} {m : Map K V}

theorem set_same (s : St K V) (t : TreeId) (x : Option (Map K V)) : (s.set t x).maps t = x := by simp [St.set]
theorem set_other (s : St K V) {t t' : TreeId} (h : t' ≠ t) (x : Option (Map K V)) : (s.set t x).maps t' = s.maps t' := by simp [St.set, h]

/-- A call on an open map. -/
theorem Step.on (h : Step cfg F s c o s') (hs : s.sound = true) (hc : c.on = some t) (hm : s.maps t = some m) : mapStep (cfg t) F s t m o s' c := by
  have h2 := h.2
  cases c <;> simp only [Call.on, Option.some.injEq, reduceCtorEq] at hc <;> subst hc <;> simp only [hs, if_true] at h2 <;>
    obtain ⟨m', e1, e2⟩ := h2 <;> rw [hm, Option.some.injEq] at e1 <;> subst e1 <;> exact e2

/-- What a call on a map does to the maps: one that is not closed stays open, its items change only as the operation wants it. -/
theorem mapStep.self {C : Cfg K} (h : mapStep C F s t m o s' c) (hs : s'.sound = true ∨ F.NoFault) (hss : s.sound = true) (hk : Keeps t c) (hc : c.on = some t) (hm : s.maps t = some m) :
    s'.sound = true ∧ ∃ m', s'.maps t = some m' ∧
      (m'.items = m.items ∨ ∃ op, c = .op t op ∧ m'.items = (stepE C.cmp m.items op).2) := by
  have key : ∀ m' : Map K V, (s.set t (some m')).maps t = some m' := fun m' => set_same _ _ _
  cases c with
  | op t' op =>
    simp only [Call.on, Option.some.injEq] at hc
    subst hc
    obtain ⟨-, ⟨h1, ⟨-, rfl⟩ | ⟨-, m', h3, rfl⟩⟩ | ⟨e, h1, h2, h3, rfl⟩ | ⟨e, h1, h2, rfl⟩⟩ := h
    · exact ⟨hss, m, hm, .inl rfl⟩
    · exact ⟨hss, m', key m', .inr ⟨op, rfl, h3.items⟩⟩
    · exact ⟨hss, m, hm, .inl rfl⟩
    · rcases hs with hs | hs
      · cases hs
      · exact absurd h1 hs.1.not
  | flush t' b =>
    obtain ⟨-, -, new, ⟨r, -, -, -, -, -, rfl⟩ | ⟨-, -, -, -, rfl⟩⟩ := h
    · exact ⟨hss, _, key _, .inl rfl⟩
    · exact ⟨hss, _, key _, .inl rfl⟩
  | purge t' b =>
    obtain ⟨-, rfl, -⟩ := h
    exact ⟨hss, m, hm, .inl rfl⟩
  | touch t' =>
    obtain ⟨-, ⟨-, rfl⟩ | ⟨e, -, -, rfl | ⟨m', h1, rfl⟩⟩⟩ := h
    · exact ⟨hss, _, key _, .inl rfl⟩
    · exact ⟨hss, m, hm, .inl rfl⟩
    · exact ⟨hss, _, key _, .inl h1.1⟩
  | touchItem t' i =>
    obtain ⟨-, ⟨-, -, rfl⟩ | ⟨n, -, -, -, m', h1, -, rfl⟩ | ⟨e, -, -, rfl⟩⟩ := h
    · exact ⟨hss, m, hm, .inl rfl⟩
    · exact ⟨hss, _, key _, .inl h1.1⟩
    · exact ⟨hss, m, hm, .inl rfl⟩
  | prune t' =>
    obtain ⟨-, ⟨-, -, -, rfl⟩ | ⟨-, h1, -, left, -, -, rfl⟩⟩ := h
    · exact ⟨hss, _, key _, .inl rfl⟩
    · exact ⟨hss, _, key _, .inl rfl⟩
  | discard t' =>
    simp only [Call.on, Option.some.injEq] at hc
    exact absurd hc hk
  | layout t' => obtain ⟨-, rfl, -⟩ := h; exact ⟨hss, m, hm, .inl rfl⟩
  | dimensions t' => obtain ⟨-, rfl, -⟩ := h; exact ⟨hss, m, hm, .inl rfl⟩
  | dump t' cb => obtain ⟨-, rfl, -⟩ := h; exact ⟨hss, m, hm, .inl rfl⟩
  | location t' =>
    obtain ⟨-, -, rfl⟩ := h
    exact ⟨hss, m, hm, .inl rfl⟩
  | new t' => exact h.elim
  | old t' r => exact h.elim
  | evict x => exact h.elim
  | limits a b => exact h.elim
  | restart => exact h.elim

/-- A call on a map does nothing to the others. -/
theorem mapStep.other {C : Cfg K} {t' : TreeId} (h : mapStep C F s t m o s' c) (hne : t' ≠ t) : s'.maps t' = s.maps t' := by
  have key : ∀ x : Option (Map K V), (s.set t x).maps t' = s.maps t' := fun x => set_other _ hne _
  cases c with
  | op _ op =>
    obtain ⟨-, ⟨h1, ⟨-, rfl⟩ | ⟨-, m', h3, rfl⟩⟩ | ⟨e, h1, h2, h3, rfl⟩ | ⟨e, h1, h2, rfl⟩⟩ := h
    exacts [rfl, key _, rfl, rfl]
  | flush _ b => obtain ⟨-, -, new, ⟨r, -, -, -, -, -, rfl⟩ | ⟨-, -, -, rfl⟩⟩ := h <;> exact key _
  | purge _ b => obtain ⟨-, rfl, -⟩ := h; rfl
  | touch _ => obtain ⟨-, ⟨-, rfl⟩ | ⟨e, -, -, rfl | ⟨m', h1, rfl⟩⟩⟩ := h; exacts [key _, rfl, key _]
  | touchItem _ i => obtain ⟨-, ⟨-, -, rfl⟩ | ⟨n, -, -, -, m', h1, -, rfl⟩ | ⟨e, -, -, rfl⟩⟩ := h; exacts [rfl, key _, rfl]
  | prune _ => obtain ⟨-, ⟨-, -, -, rfl⟩ | ⟨-, h1, -, left, -, -, rfl⟩⟩ := h <;> exact key _
  | discard _ => obtain ⟨-, -, -, -, rfl⟩ := h; exact key _
  | layout _ => obtain ⟨-, rfl, -⟩ := h; rfl
  | dimensions _ => obtain ⟨-, rfl, -⟩ := h; rfl
  | dump _ _ => obtain ⟨-, rfl, -⟩ := h; rfl
  | location _ => obtain ⟨-, -, rfl⟩ := h; rfl
  | new _ => exact h.elim
  | old _ _ => exact h.elim
  | evict _ => exact h.elim
  | limits _ _ => exact h.elim
  | restart => exact h.elim

/-- Soundness is lost only by failures. -/
theorem mapStep.sound {C : Cfg K} (h : mapStep C F s t m o s' c) (hF : F.NoFault) (hss : s.sound = true) : s'.sound = true := by
  cases c with
  | op _ op =>
    obtain ⟨-, ⟨h1, ⟨-, rfl⟩ | ⟨-, m', h3, rfl⟩⟩ | ⟨e, h1, h2, h3, rfl⟩ | ⟨e, h1, h2, rfl⟩⟩ := h
    exacts [hss, hss, hss, absurd h1 hF.1.not]
  | flush _ b => obtain ⟨-, -, new, ⟨r, -, -, -, -, -, rfl⟩ | ⟨-, -, -, rfl⟩⟩ := h <;> exact hss
  | purge _ b => obtain ⟨-, rfl, -⟩ := h; exact hss
  | touch _ => obtain ⟨-, ⟨-, rfl⟩ | ⟨e, -, -, rfl | ⟨m', h1, rfl⟩⟩⟩ := h <;> exact hss
  | touchItem _ i => obtain ⟨-, ⟨-, -, rfl⟩ | ⟨n, -, -, -, m', h1, -, rfl⟩ | ⟨e, -, -, rfl⟩⟩ := h; exacts [hss, hss, hss]
  | prune _ => obtain ⟨-, ⟨-, -, -, rfl⟩ | ⟨-, h1, -, left, -, -, rfl⟩⟩ := h; exacts [hss, hss]
  | discard _ => obtain ⟨-, -, -, -, rfl⟩ := h; exact hss
  | layout _ => obtain ⟨-, rfl, -⟩ := h; exact hss
  | dimensions _ => obtain ⟨-, rfl, -⟩ := h; exact hss
  | dump _ _ => obtain ⟨-, rfl, -⟩ := h; exact hss
  | location _ => obtain ⟨-, -, rfl⟩ := h; exact hss
  | new _ => exact h.elim
  | old _ _ => exact h.elim
  | evict _ => exact h.elim
  | limits _ _ => exact h.elim
  | restart => exact h.elim

/-- Any call: a map that is open and is not closed stays open, and its items change only as an operation on it wants it. -/
theorem Step.keeps (h : Step cfg F s c o s') (hp : Pre cfg F s c) (hs : s.sound = true) (hs' : s'.sound = true ∨ F.NoFault) (hk : Keeps t c) (hm : s.maps t = some m) :
    s'.sound = true ∧ ∃ m', s'.maps t = some m' ∧ (c.on = some t ∨ m' = m) ∧
      (m'.items = m.items ∨ ∃ op, c = .op t op ∧ m'.items = (stepE (cfg t).cmp m.items op).2) := by
  have hon : ∀ t', c.on = some t' → s'.sound = true ∧ ∃ m', s'.maps t = some m' ∧ (c.on = some t ∨ m' = m) ∧
      (m'.items = m.items ∨ ∃ op, c = .op t op ∧ m'.items = (stepE (cfg t).cmp m.items op).2) := by
    intro t' hc
    obtain ⟨m0, hm0⟩ : ∃ m0, s.maps t' = some m0 := by
      cases c with
      | op _ o =>
        simp only [Call.on, Option.some.injEq] at hc
        subst hc
        cases o <;> simp only [Pre, hs, if_true] at hp
        case put => exact ⟨hp.choose, hp.choose_spec.1⟩
        all_goals exact hp
      | discard _ =>
        simp only [Call.on, Option.some.injEq] at hc
        subst hc
        simp only [Pre, hs, if_true] at hp
        exact ⟨hp.1.choose, hp.1.choose_spec.1⟩
      | prune _ =>
        simp only [Call.on, Option.some.injEq] at hc
        subst hc
        simp only [Pre, hs, if_true] at hp
        exact ⟨hp.choose, hp.choose_spec.1⟩
      | _ =>
        first
        | (simp only [Call.on, Option.some.injEq] at hc
           subst hc
           simp only [Pre, hs, if_true] at hp
           exact hp)
        | cases hc
    have h1 := h.on hs hc hm0
    by_cases ht : t = t'
    · subst ht
      rw [hm, Option.some.injEq] at hm0
      subst hm0
      obtain ⟨a1, m', a2, a3⟩ := h1.self hs' hs hk hc hm
      exact ⟨a1, m', a2, .inl hc, a3⟩
    · exact ⟨hs'.elim id (fun hF => h1.sound hF hs), m, by rw [h1.other ht]; exact hm, .inr rfl, .inl rfl⟩
  have h2 := h.2
  cases c with
  | new t' =>
    simp only [Pre, hs, if_true] at h2 hp
    obtain ⟨-, -, rfl⟩ := h2
    have : t ≠ t' := by rintro rfl; rw [hm] at hp; cases hp
    exact ⟨hs, m, by rw [set_other _ this]; exact hm, .inr rfl, .inl rfl⟩
  | old t' r =>
    simp only [Pre, hs, if_true] at h2 hp
    obtain ⟨-, sn, -, ⟨-, rfl⟩ | ⟨e, -, -, rfl⟩⟩ := h2
    · have : t ≠ t' := by rintro rfl; rw [hm] at hp; cases hp.1
      exact ⟨hs, m, by show (s.set t' _).maps t = _; rw [set_other _ this]; exact hm, .inr rfl, .inl rfl⟩
    · exact ⟨hs, m, hm, .inr rfl, .inl rfl⟩
  | evict x => simp only [hs, if_true] at h2; obtain ⟨-, -, rfl⟩ := h2; exact ⟨hs, m, hm, .inr rfl, .inl rfl⟩
  | limits a b => simp only [hs, if_true] at h2; obtain ⟨-, -, rfl⟩ := h2; exact ⟨hs, m, hm, .inr rfl, .inl rfl⟩
  | restart => exact hk.elim
  | _ => exact hon _ rfl

/-- Calls, each of which may be made whatever state of the specification the earlier ones have led to. -/
def Legal (cfg : TreeId → Cfg K) : St K V → List (Call K V × Faults × Obs K V) → Prop
  | _, [] => True
  | s, (c, F, o) :: l => Pre cfg F s c ∧ ∀ s', Step cfg F s c o s' → Legal cfg s' l

/-- The operations of a sorted map that are called on `t`. -/
def opsOn (t : TreeId) : List (Call K V) → List (Op K V)
  | [] => []
  | .op t' o :: l => if t' = t then o :: opsOn t l else opsOn t l
  | _ :: l => opsOn t l

/-- What they return. -/
def answersOn (t : TreeId) : List (Call K V × Faults × Obs K V) → List (Op K V × Out (Reply K V))
  | [] => []
  | (.op t' o, _, b) :: l => if t' = t then (o, b.out) :: answersOn t l else answersOn t l
  | _ :: l => answersOn t l

/-- Each result is the one wanted. -/
def AllWanted (cmp : Compare K) : List (Op K V × Out (Reply K V)) → List (Option (Ans K V)) → Prop
  | [], [] => True
  | (o, x) :: l, a :: as => Wanted cmp o x a ∧ AllWanted cmp l as
  | _, _ => False

theorem AllWanted.ops {cmp : Compare K} : ∀ {l : List (Op K V × Out (Reply K V))} {a : List (Option (Ans K V))}, AllWanted cmp l a → l.length = a.length
  | [], [], _ => rfl
  | (_, _) :: l, _ :: as, h => by simp [AllWanted.ops h.2]

/-- Whatever else is called, a map behaves as a sorted list as long as no callback but PutNode fails. -/
theorem Meets.sorted {t : TreeId} : ∀ {l : List (Call K V × Faults × Obs K V)} {s : St K V} {m : Map K V}, Meets cfg s l → Legal cfg s l →
    s.sound = true → s.maps t = some m → (∀ x ∈ l, Keeps t x.1 ∧ x.2.1.NoFault) →
    AllWanted (cfg t).cmp (answersOn t l) (Spec.run (cfg t).cmp m.items (opsOn t (l.map Prod.fst))).1
  | [], _, _, _, _, _, _, _ => trivial
  | (c, F, o) :: l, s, m, hm, hl, hs, hmt, hk => by
      simp only [List.mem_cons, forall_eq_or_imp] at hk
      obtain ⟨s', h1, h2⟩ := hm hl.1
      obtain ⟨k1, m', k2, -, k3⟩ := h1.keeps hl.1 hs (.inr hk.1.2) hk.1.1 hmt
      have ih := Meets.sorted h2 (hl.2 s' h1) k1 k2 hk.2
      by_cases hc : ∃ op, c = .op t op
      · obtain ⟨op, rfl⟩ := hc
        have h3 := h1.on hs rfl hmt
        simp only [answersOn, if_true, opsOn, List.map_cons, Spec.run]
        obtain ⟨-, ⟨w1, ⟨w3, rfl⟩ | ⟨-, m2, w3, rfl⟩⟩ | ⟨e, -, w2, -⟩ | ⟨e, w2, -⟩⟩ := h3
        · refine ⟨w1, ?_⟩
          rw [hmt, Option.some.injEq] at k2
          subst k2
          rw [w3]
          exact ih
        · refine ⟨w1, ?_⟩
          rw [set_same, Option.some.injEq] at k2
          subst k2
          rw [w3.items] at ih
          exact ih
        · exact absurd w2 hk.1.2.1.not
        · exact absurd w2 hk.1.2.1.not
      · have e1 : opsOn t (((c, F, o) :: l).map Prod.fst) = opsOn t (l.map Prod.fst) ∧ answersOn t ((c, F, o) :: l) = answersOn t l := by
          cases c with
          | op t' op =>
            have : t' ≠ t := by rintro rfl; exact hc ⟨op, rfl⟩
            simp [opsOn, answersOn, this]
          | _ => exact ⟨rfl, rfl⟩
        have e2 : m'.items = m.items := by
          rcases k3 with k3 | ⟨op, rfl, -⟩
          · exact k3
          · exact absurd ⟨op, rfl⟩ hc
        rw [e1.1, e1.2, ← e2]
        exact ih

/-- Calls on `t` alone: no care is needed beyond valid keys. -/
def OwnCall (C : Cfg K) (t : TreeId) : Call K V → Prop
  | .op t' (.put k _) => t' = t ∧ C.Valid k
  | .op t' _ | .flush t' _ | .purge t' _ | .touch t' | .touchItem t' _ | .prune t' | .layout t' | .dimensions t' | .location t' | .dump t' _ => t' = t
  | .evict _ | .limits _ _ => True
  | _ => False

theorem OwnCall.keeps {C : Cfg K} (h : OwnCall C t c) : Keeps t c := by
  cases c <;> first | trivial | exact h.elim

theorem OwnCall.pre (h : OwnCall (cfg t) t c) (hs : s.sound = true) (hm : s.maps t = some m) (hT : c = .prune t → m.fails = 0) : Pre cfg F s c := by
  cases c with
  | op t' o =>
    cases o with
    | put k v =>
      obtain ⟨rfl, hk⟩ := h
      simp only [Pre, hs, if_true]
      exact ⟨m, hm, .inl hk⟩
    | _ =>
      have h : t' = t := h
      subst h
      simp only [Pre, hs, if_true]
      exact ⟨m, hm⟩
  | prune t' =>
    obtain rfl := h
    simp only [Pre, hs, if_true]
    exact ⟨m, hm, hT rfl⟩
  | _ =>
    first
    | exact h.elim
    | (simp only [Pre, hs, if_true]; done)
    | (obtain rfl := h
       simp only [Pre, hs, if_true]
       exact ⟨m, hm⟩)

/-- Calls that may be made, from one state to another. -/
def Steps (cfg : TreeId → Cfg K) : St K V → List (Call K V × Faults × Obs K V) → St K V → Prop
  | s, [], s' => s' = s
  | s, (c, F, o) :: l, s' => ∃ s1, Pre cfg F s c ∧ Step cfg F s c o s1 ∧ Steps cfg s1 l s'

theorem Steps.append : ∀ {l₁ l₂ : List (Call K V × Faults × Obs K V)} {s s' : St K V}, Steps cfg s (l₁ ++ l₂) s' ↔ ∃ s1, Steps cfg s l₁ s1 ∧ Steps cfg s1 l₂ s'
  | [], l₂, s, s' => by simp [Steps]
  | (c, F, o) :: l₁, l₂, s, s' => by
      simp only [List.cons_append, Steps, Steps.append (l₁ := l₁)]
      constructor
      · rintro ⟨a, h1, h2, b, h3, h4⟩; exact ⟨b, ⟨a, h1, h2, h3⟩, h4⟩
      · rintro ⟨b, ⟨a, h1, h2, h3⟩, h4⟩; exact ⟨a, h1, h2, b, h3, h4⟩

theorem Legal.append : ∀ {l₁ l₂ : List (Call K V × Faults × Obs K V)} {s : St K V}, Legal cfg s (l₁ ++ l₂) ↔ Legal cfg s l₁ ∧ ∀ s1, Steps cfg s l₁ s1 → Legal cfg s1 l₂
  | [], l₂, s => by simp [Steps, Legal]
  | (c, F, o) :: l₁, l₂, s => by
      simp only [List.cons_append, Steps, Legal, Legal.append (l₁ := l₁)]
      constructor
      · rintro ⟨h1, h2⟩
        exact ⟨⟨h1, fun s' h => (h2 s' h).1⟩, fun s1 ⟨a, _, h3, h4⟩ => (h2 a h3).2 s1 h4⟩
      · rintro ⟨⟨h1, h2⟩, h3⟩
        exact ⟨h1, fun s' h => ⟨h2 s' h, fun s1 h4 => h3 s1 ⟨s', h1, h, h4⟩⟩⟩

/-- A deletion that reported a failing callback after it had removed the item, or might have. After these the maps
are not to be relied on until the next restart. -/
def Hurt : Call K V × Faults × Obs K V → Prop
  | (.op _ (.deleteByKey _), F, o) => ∃ e, F.reading e ∧ o.out = .ok (.ans (.done true, some e))
  | (.op _ (.deleteByIndex _), F, o) => ∃ e, F.reading e ∧ (o.out = .err e ∨ o.out = .ok (.ans (.done true, some e)))
  | _ => False

/-- No such thing since the last restart. -/
def Intact (l : List (Call K V × Faults × Obs K V)) : Prop :=
  ∃ a b, l = a ++ b ∧ (a = [] ∨ ∃ a' F o, a = a' ++ [(.restart, F, o)]) ∧ ∀ x ∈ b, ¬Hurt x

theorem mapStep.keepSound {C : Cfg K} (h : mapStep C F s t m o s' c) (hc : c.on = some t) (hu : ¬Hurt (c, F, o)) (hss : s.sound = true) : s'.sound = true := by
  cases c with
  | op t' op =>
    obtain ⟨-, ⟨h1, ⟨-, rfl⟩ | ⟨-, m', h3, rfl⟩⟩ | ⟨e, h1, h2, h3, rfl⟩ | ⟨e, h1, h2, rfl⟩⟩ := h
    · exact hss
    · exact hss
    · exact hss
    · refine absurd ?_ hu
      rcases h2 with ⟨h2, h3⟩ | ⟨h2, h3, -⟩
      · cases op <;> first | exact h3.elim | exact ⟨e, h1, .inl h2⟩
      · cases op <;> first | exact h3.elim | exact ⟨e, h1, h2⟩ | exact ⟨e, h1, .inr h2⟩
  | flush _ b => obtain ⟨-, -, new, ⟨r, -, -, -, -, -, rfl⟩ | ⟨-, -, -, rfl⟩⟩ := h <;> exact hss
  | purge _ b => obtain ⟨-, rfl, -⟩ := h; exact hss
  | touch _ => obtain ⟨-, ⟨-, rfl⟩ | ⟨e, -, -, rfl | ⟨m', h1, rfl⟩⟩⟩ := h <;> exact hss
  | touchItem _ i => obtain ⟨-, ⟨-, -, rfl⟩ | ⟨n, -, -, -, m', h1, -, rfl⟩ | ⟨e, -, -, rfl⟩⟩ := h; exacts [hss, hss, hss]
  | prune _ => obtain ⟨-, ⟨-, -, -, rfl⟩ | ⟨h0, h1, -, left, -, -, rfl⟩⟩ := h; exacts [hss, hss]
  | discard _ => obtain ⟨-, -, -, -, rfl⟩ := h; exact hss
  | layout _ => obtain ⟨-, rfl, -⟩ := h; exact hss
  | dimensions _ => obtain ⟨-, rfl, -⟩ := h; exact hss
  | dump _ _ => obtain ⟨-, rfl, -⟩ := h; exact hss
  | location _ => obtain ⟨-, -, rfl⟩ := h; exact hss
  | new _ => exact h.elim
  | old _ _ => exact h.elim
  | evict _ => exact h.elim
  | limits _ _ => exact h.elim
  | restart => exact h.elim

/-- A call on a map, or another one. -/
theorem Step.cases (h : Step cfg F s c o s') (hs : s.sound = true) :
    (∃ t m, c.on = some t ∧ s.maps t = some m ∧ mapStep (cfg t) F s t m o s' c) ∨
    (∃ t, c = .new t ∧ o.quiet ∧ o.out = .ok .unit ∧ s' = s.set t (some ⟨[], 0, 0, none, 0⟩)) ∨
    (∃ t r sn, c = .old t r ∧ o.quiet ∧ s.snaps r = some sn ∧
      ((o.out = .ok .unit ∧ s' = { s.set t (some ⟨sn.items, sn.locs, 0, some r, 0⟩) with lost := fun x => s.lost x ∧ x ∉ sn.locs }) ∨
       ∃ e, o.out = .err e ∧ F.reading e ∧ s' = s)) ∨
    (((∃ x, c = .evict x) ∨ ∃ a b, c = .limits a b) ∧ o.quiet ∧ o.out = .ok .unit ∧ s' = s) ∨
    (c = .restart ∧ o.quiet ∧ o.out = .ok .unit ∧ s' = { s with maps := fun _ => none, lost := s.holds, sound := true }) := by
  have h2 := h.2
  cases c with
  | new t => simp only [hs, if_true] at h2; exact .inr (.inl ⟨t, rfl, h2⟩)
  | old t r => simp only [hs, if_true] at h2; obtain ⟨q, sn, h3, h4⟩ := h2; exact .inr (.inr (.inl ⟨t, r, sn, rfl, q, h3, h4⟩))
  | evict x => simp only [hs, if_true] at h2; exact .inr (.inr (.inr (.inl ⟨.inl ⟨x, rfl⟩, h2⟩)))
  | limits a b => simp only [hs, if_true] at h2; exact .inr (.inr (.inr (.inl ⟨.inr ⟨a, b, rfl⟩, h2⟩)))
  | restart => exact .inr (.inr (.inr (.inr ⟨rfl, h2⟩)))
  | _ => simp only [hs, if_true] at h2; obtain ⟨m, h3, h4⟩ := h2; exact .inl ⟨_, m, rfl, h3, h4⟩

theorem Step.sound (h : Step cfg F s c o s') (hs : s.sound = true) (hu : ¬Hurt (c, F, o)) : s'.sound = true := by
  rcases h.cases hs with ⟨t, m, h1, h2, h3⟩ | ⟨t, -, -, -, rfl⟩ | ⟨t, r, sn, -, -, -, ⟨-, rfl⟩ | ⟨e, -, -, rfl⟩⟩ | ⟨-, -, -, rfl⟩ | ⟨-, -, -, rfl⟩
  · exact h3.keepSound h1 hu hs
  all_goals first | exact hs | rfl

theorem Steps.sound : ∀ {l : List (Call K V × Faults × Obs K V)} {s s' : St K V}, Steps cfg s l s' → s.sound = true → (∀ x ∈ l, ¬Hurt x) → s'.sound = true
  | [], _, _, h, hs, _ => by cases h; exact hs
  | (c, F, o) :: l, s, s', ⟨s1, _, h2, h3⟩, hs, hu => Steps.sound h3 (h2.sound hs (hu _ (by simp))) (fun x hx => hu x (by simp [hx]))

theorem Steps.intact {l : List (Call K V × Faults × Obs K V)} (h : Steps cfg s l s') (hs : s.sound = true) (hi : Intact l) : s'.sound = true := by
  obtain ⟨a, b, rfl, rfl | ⟨a', F', o', rfl⟩, hb⟩ := hi
  · exact Steps.sound h hs hb
  · obtain ⟨s1, h1, h2⟩ := Steps.append.1 h
    obtain ⟨s2, h3, s3, -, h4, h5⟩ := Steps.append.1 h1
    obtain rfl : s1 = s3 := h5
    refine Steps.sound h2 ?_ hb
    have := h4.2
    obtain ⟨-, -, rfl⟩ := this
    rfl

/-- Intactness of a longer history, unless it ends in a restart. -/
theorem Intact.init {l : List (Call K V × Faults × Obs K V)} {x : Call K V × Faults × Obs K V} (h : Intact (l ++ [x])) (hx : x.1 ≠ .restart) : Intact l := by
  obtain ⟨a, b, e, h1, h2⟩ := h
  rcases List.eq_nil_or_concat b with rfl | ⟨b', y, rfl⟩
  · rcases h1 with rfl | ⟨a', F', o', rfl⟩
    · simp at e
    · rw [List.append_nil] at e
      obtain ⟨-, e2⟩ := List.append_inj' e rfl
      simp only [List.cons.injEq, and_true] at e2
      exact absurd (by rw [e2]) hx
  · rw [List.concat_eq_append, ← List.append_assoc] at e
    obtain ⟨e1, -⟩ := List.append_inj' e rfl
    exact ⟨a, b', e1, h1, fun x hx => h2 x (by simp [hx])⟩

theorem Intact.of_noHurt {l : List (Call K V × Faults × Obs K V)} (h : ∀ x ∈ l, ¬Hurt x) : Intact l := ⟨[], l, rfl, .inl rfl, h⟩

theorem Intact.snoc {l : List (Call K V × Faults × Obs K V)} {x : Call K V × Faults × Obs K V} (h : Intact l) (hx : ¬Hurt x) : Intact (l ++ [x]) := by
  obtain ⟨a, b, rfl, h1, h2⟩ := h
  refine ⟨a, b ++ [x], by rw [List.append_assoc], h1, fun y hy => ?_⟩
  rcases List.mem_append.1 hy with hy | hy
  · exact h2 y hy
  · rw [List.mem_singleton] at hy; rw [hy]; exact hx

/-- Calls after which all calls may be made: those other than deletions and Prune, and these too if nothing fails.
(After a failing Prune all but Prune and Discard of that map.) -/
def Mild (F : Faults) : Call K V → Prop
  | .op _ (.deleteByKey _) | .op _ (.deleteByIndex _) | .prune _ => F.NoFault
  | _ => True

theorem Mild.of_noFault (h : F.NoFault) : Mild F c := by
  cases c with
  | op t o => cases o <;> first | exact h | trivial
  | _ => first | exact h | trivial

theorem Step.mild (h : Step cfg F s c o s') (hs : s.sound = true) (hm : Mild F c) : s'.sound = true ∧ ¬Hurt (c, F, o) := by
  have hu : ¬Hurt (c, F, o) := by
    cases c with
    | op t op => cases op <;> first | exact id | (rintro ⟨e, he, -⟩; exact hm.1.not he)
    | _ => exact id
  exact ⟨h.sound hs hu, hu⟩

/-- A Prune that failed: the map must not be pruned again, nor discarded. -/
def Failed (t : TreeId) : Call K V × Faults × Obs K V → Prop
  | (.prune t', _, o) => t' = t ∧ o.out = .err .discardNode
  | _ => False

theorem mapStep.fails {C : Cfg K} {m' : Map K V} (h : mapStep C F s t m o s' c) (hc : c.on = some t) (hm : s.maps t = some m) (hm' : s'.maps t = some m') (hu : ¬Failed t (c, F, o)) :
    m'.fails = m.fails := by
  have key : ∀ {x : Map K V}, (s.set t (some x)).maps t = some m' → m' = x := by
    intro x hx
    rw [set_same, Option.some.injEq] at hx
    exact hx.symm
  have keep : s.maps t = some m' → m'.fails = m.fails := by
    intro hx
    rw [hm, Option.some.injEq] at hx
    rw [hx]
  cases c with
  | op t' op =>
    obtain ⟨-, ⟨h1, ⟨-, rfl⟩ | ⟨-, m2, h3, rfl⟩⟩ | ⟨e, h1, h2, h3, rfl⟩ | ⟨e, h1, h2, rfl⟩⟩ := h
    · exact keep hm'
    · rw [key hm']; exact h3.fails
    · exact keep hm'
    · exact keep hm'
  | flush _ b => obtain ⟨-, -, new, ⟨r, -, -, -, -, -, rfl⟩ | ⟨-, -, -, rfl⟩⟩ := h <;> rw [key hm']
  | purge _ b => obtain ⟨-, rfl, -⟩ := h; exact keep hm'
  | touch _ =>
    obtain ⟨-, ⟨-, rfl⟩ | ⟨e, -, -, rfl | ⟨m2, h1, rfl⟩⟩⟩ := h
    · rw [key hm']
    · exact keep hm'
    · rw [key hm']; exact h1.fails
  | touchItem _ i =>
    obtain ⟨-, ⟨-, -, rfl⟩ | ⟨n, -, -, -, m2, h1, -, rfl⟩ | ⟨e, -, -, rfl⟩⟩ := h
    · exact keep hm'
    · rw [key hm']; exact h1.fails
    · exact keep hm'
  | prune _ =>
    obtain ⟨-, ⟨-, -, -, rfl⟩ | ⟨h0, h1, -, left, -, -, rfl⟩⟩ := h
    · rw [key hm']
    · simp only [Call.on, Option.some.injEq] at hc
      exact absurd ⟨hc, h0⟩ hu
  | discard _ =>
    obtain ⟨-, -, -, -, rfl⟩ := h
    have : (s.set t none).maps t = some m' := hm'
    rw [set_same] at this
    cases this
  | layout _ => obtain ⟨-, rfl, -⟩ := h; exact keep hm'
  | dimensions _ => obtain ⟨-, rfl, -⟩ := h; exact keep hm'
  | dump _ _ => obtain ⟨-, rfl, -⟩ := h; exact keep hm'
  | location _ => obtain ⟨-, -, rfl⟩ := h; exact keep hm'
  | new _ => exact h.elim
  | old _ _ => exact h.elim
  | evict _ => exact h.elim
  | limits _ _ => exact h.elim
  | restart => exact h.elim

/-- Only a Prune that fails keeps a map from being pruned again. -/
theorem Step.fails {m' : Map K V} (h : Step cfg F s c o s') (hm' : s'.maps t = some m') (hu : ¬Failed t (c, F, o)) :
    m'.fails = 0 ∨ ∃ m, s.maps t = some m ∧ m'.fails = m.fails := by
  by_cases hr : c = .restart
  · subst hr
    obtain ⟨-, -, rfl⟩ := h.2
    cases hm'
  cases hs : s.sound with
  | false =>
    have h2 := h.2
    have : s' = { s with exact := false } := by
      cases c <;> first | exact absurd rfl hr | (simp only [hs] at h2; rw [hs]; exact h2.2.2)
    subst this
    exact .inr ⟨m', hm', rfl⟩
  | true =>
    rcases h.cases hs with ⟨t', m, h1, h2, h3⟩ | ⟨t', -, -, -, rfl⟩ | ⟨t', r, sn, -, -, -, ⟨-, rfl⟩ | ⟨e, -, -, rfl⟩⟩ | ⟨-, -, -, rfl⟩ | ⟨-, -, -, rfl⟩
    · by_cases ht : t = t'
      · subst ht
        exact .inr ⟨m, h2, h3.fails h1 h2 hm' hu⟩
      · rw [h3.other ht] at hm'
        exact .inr ⟨m', hm', rfl⟩
    · by_cases ht : t = t'
      · subst ht
        rw [set_same, Option.some.injEq] at hm'
        exact .inl (by rw [← hm'])
      · rw [set_other _ ht] at hm'
        exact .inr ⟨m', hm', rfl⟩
    · have hm' : (s.set t' _).maps t = some m' := hm'
      by_cases ht : t = t'
      · subst ht
        rw [set_same, Option.some.injEq] at hm'
        exact .inl (by rw [← hm'])
      · rw [set_other _ ht] at hm'
        exact .inr ⟨m', hm', rfl⟩
    · exact .inr ⟨m', hm', rfl⟩
    · exact .inr ⟨m', hm', rfl⟩
    · cases hm'

/-- No Prune of map `t` has failed since the map was opened. -/
def Clear (t : TreeId) (l : List (Call K V × Faults × Obs K V)) : Prop :=
  ∃ a b, l = a ++ b ∧ (a = [] ∨ ∃ a' x, a = a' ++ [x] ∧ (x.1 = .restart ∨ x.1 = .discard t)) ∧ ∀ x ∈ b, ¬Failed t x

theorem Steps.fails : ∀ {l : List (Call K V × Faults × Obs K V)} {s s' : St K V}, Steps cfg s l s' → (∀ m, s.maps t = some m → m.fails = 0) → (∀ x ∈ l, ¬Failed t x) →
    ∀ m, s'.maps t = some m → m.fails = 0
  | [], _, _, h, hs, _ => by cases h; exact hs
  | (c, F, o) :: l, s, s', ⟨s1, _, h2, h3⟩, hs, hu => by
      refine Steps.fails h3 (fun m hm => ?_) (fun x hx => hu x (by simp [hx]))
      rcases h2.fails hm (hu _ (by simp)) with h | ⟨m0, h, h'⟩
      · exact h
      · rw [h', hs m0 h]

theorem Steps.clear {l : List (Call K V × Faults × Obs K V)} (h : Steps cfg s l s') (hs : s.maps t = none) (hl : Clear t l) (hm : s'.maps t = some m) : m.fails = 0 := by
  obtain ⟨a, b, rfl, ha, hb⟩ := hl
  obtain ⟨s1, h1, h2⟩ := Steps.append.1 h
  refine Steps.fails h2 (fun m0 hm0 => ?_) hb m hm
  rcases ha with rfl | ⟨a', ⟨c, F, o⟩, rfl, hx⟩
  · cases h1
    rw [hs] at hm0
    cases hm0
  · obtain ⟨s2, -, s3, k1, k2, k3⟩ := Steps.append.1 h1
    obtain rfl : s1 = s3 := k3
    rcases hx with hx | hx <;> dsimp only at hx <;> subst hx
    · obtain ⟨-, -, rfl⟩ := k2.2
      cases hm0
    · have hss : s2.sound = true := by
        by_contra h0
        rw [Bool.not_eq_true] at h0
        simp [Pre, h0] at k1
      have k4 := k2.2
      simp only [hss, if_true] at k4
      obtain ⟨m2, -, -, -, -, -, rfl⟩ := k4
      rw [show ((s2.set t none).forget _).maps t = none from set_same _ _ _] at hm0
      cases hm0

theorem Mild.not_failed (h : Step cfg F s c o s') (hs : s.sound = true) (hm : Mild F c) : ¬Failed t (c, F, o) := by
  cases c with
  | prune t' =>
    rintro ⟨-, hh⟩
    have h2 := h.2
    simp only [hs, if_true] at h2
    obtain ⟨m, -, -, ⟨k1, -⟩ | ⟨-, k1, -⟩⟩ := h2
    · rw [hh] at k1; cases k1
    · exact hm.2 k1
  | _ => exact id

theorem Step.keep_fails {m' : Map K V} (h : Step cfg F s c o s') (hs : s.sound = true) (hM : Mild F c) (hm : s.maps t = some m) (hm' : s'.maps t = some m') (hT : m.fails = 0) : m'.fails = 0 := by
  rcases h.fails hm' (Mild.not_failed h hs hM) with h3 | ⟨m2, h3, h4⟩
  · exact h3
  · rw [hm, Option.some.injEq] at h3
    rw [h4, ← h3, hT]

theorem legal_mild : ∀ {l : List (Call K V × Faults × Obs K V)} {s : St K V} {m : Map K V}, s.sound = true → s.maps t = some m → m.fails = 0 →
    (∀ x ∈ l, OwnCall (cfg t) t x.1 ∧ Mild x.2.1 x.1) → Legal cfg s l
  | [], _, _, _, _, _, _ => trivial
  | (c, F, o) :: l, s, m, hs, hm, hT, hk => by
      simp only [List.mem_cons, forall_eq_or_imp] at hk
      refine ⟨hk.1.1.pre hs hm (fun _ => hT), fun s' h => ?_⟩
      obtain ⟨k1, m', k2, -⟩ := h.keeps (hk.1.1.pre hs hm (fun _ => hT)) hs (.inl (h.mild hs hk.1.2).1) hk.1.1.keeps hm
      exact legal_mild k1 k2 (h.keep_fails hs hk.1.2 hm k2 hT) hk.2

theorem Steps.mild : ∀ {l : List (Call K V × Faults × Obs K V)} {s s' : St K V}, Steps cfg s l s' → s.sound = true → (∀ x ∈ l, Mild x.2.1 x.1) → ∀ x ∈ l, ¬Hurt x
  | [], _, _, _, _, _, x, hx => by cases hx
  | (c, F, o) :: l, s, s', ⟨s1, _, h2, h3⟩, hs, hu, x, hx => by
      have := h2.mild hs (hu (c, F, o) (by simp))
      rcases List.mem_cons.1 hx with rfl | hx
      · exact this.2
      · exact Steps.mild h3 this.1 (fun x hx => hu x (by simp [hx])) x hx

theorem Steps.not_failed : ∀ {l : List (Call K V × Faults × Obs K V)} {s s' : St K V}, Steps cfg s l s' → s.sound = true → (∀ x ∈ l, Mild x.2.1 x.1) → ∀ x ∈ l, ¬Failed t x
  | [], _, _, _, _, _, x, hx => by cases hx
  | (c, F, o) :: l, s, s', ⟨s1, _, h2, h3⟩, hs, hu, x, hx => by
      rcases List.mem_cons.1 hx with rfl | hx
      · exact Mild.not_failed h2 hs (hu (c, F, o) List.mem_cons_self)
      · exact Steps.not_failed h3 (h2.mild hs (hu (c, F, o) (by simp))).1 (fun x hx => hu x (by simp [hx])) x hx

end

end SM.Api

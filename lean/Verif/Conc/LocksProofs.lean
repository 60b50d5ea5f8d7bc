import Verif.Conc.Locks

/-! Lock order: mutexes of trees before all others, the others never nested. -/

namespace SM.Conc

def rank : Mutex → Nat
  | .tree _ => 0
  | .llrb _ => 1
  | .cache _ => 1

/-- From a moment at which the thread holds `h`, the latest first, it takes only mutexes above those it holds, and lets go of the latest first. -/
def Ordered : List Mutex → List Act → Prop
  | h, [] => h = []
  | h, .step :: l => Ordered h l
  | h, .lock m :: l => (∀ x ∈ h, rank x < rank m) ∧ Ordered (m :: h) l
  | h, .unlock m :: l => ∃ h', h = m :: h' ∧ Ordered h' l

/-- The code gives back what it takes, and may be run holding mutexes below `r`. -/
def Neutral (r : Nat) (p : Code) : Prop :=
  ∀ l, p.Does l → ∀ h rest, (∀ x ∈ h, rank x < r) → Ordered h rest → Ordered h (l ++ rest)

namespace Neutral
variable {r r' : Nat} {p q : Code}

theorem mono (h : Neutral r' p) (hr : r ≤ r') : Neutral r p := fun l hl g rest hg => h l hl g rest fun x hx => by have := hg x hx; omega
theorem skip : Neutral r .skip := fun l hl h rest _ ho => by cases hl; exact ho
theorem step : Neutral r (.act .step) := fun l hl h rest _ ho => by cases hl; exact ho
theorem seq (hp : Neutral r p) (hq : Neutral r q) : Neutral r (.seq p q) := fun l hl h rest hh ho => by
  cases hl with
  | seq h1 h2 => rw [List.append_assoc]; exact hp _ h1 _ _ hh (hq _ h2 _ _ hh ho)
theorem or (hp : Neutral r p) (hq : Neutral r q) : Neutral r (.or p q) := fun l hl h rest hh ho => by
  cases hl with
  | left h1 => exact hp _ h1 _ _ hh ho
  | right h1 => exact hq _ h1 _ _ hh ho
theorem any {f : Nat → Code} (hf : ∀ i, Neutral r (f i)) : Neutral r (.any f) := fun l hl h rest hh ho => by
  cases hl with
  | any i h1 => exact hf i _ h1 _ _ hh ho
theorem star (hp : Neutral r p) : Neutral r (.star p) := fun l hl => by
  generalize hs : Code.star p = s at hl
  induction hl with
  | done => exact fun _ _ _ ho => ho
  | more h1 _ _ ih =>
    cases hs
    intro h rest hh ho
    rw [List.append_assoc]
    exact hp _ h1 _ _ hh (ih rfl _ _ hh ho)
  | _ => cases hs
theorem guarded {m : Mutex} (hp : Neutral (rank m + 1) p) : Neutral (rank m) (guarded m p) := fun l hl h rest hh ho => by
  cases hl with
  | seq h1 h2 =>
    cases h1
    cases h2 with
    | seq h3 h4 =>
      cases h4
      simp only [List.cons_append, List.nil_append, List.append_assoc, Ordered]
      refine ⟨hh, hp _ h3 _ _ ?_ ⟨h, rfl, ho⟩⟩
      simp only [List.mem_cons, forall_eq_or_imp]
      exact ⟨by omega, fun x hx => by have := hh x hx; omega⟩

theorem work : Neutral r work := star step
theorem llrbCall (i : Nat) : Neutral 1 (llrbCall i) := guarded (m := .llrb i) work
theorem cacheFn : ∀ c, Neutral 1 (cacheFn c)
  | none => work
  | some c => guarded (m := .cache c) work
theorem treeWork (c : Option Nat) : Neutral 1 (treeWork c) := star (or (any llrbCall) (or (cacheFn c) work))
theorem treeCall (τ : Nat) (c : Option Nat) : Neutral 0 (treeCall τ c) := guarded (m := .tree τ) (treeWork c)
theorem cacheCall (c : Nat) : Neutral 1 (cacheCall c) := guarded (m := .cache c) work
theorem drainerCode (c : Nat) : Neutral 0 (drainerCode c) :=
  seq (star (seq (mono (cacheCall c) (by omega)) (any fun τ => guarded (m := .tree τ) (or skip (treeWork _))))) (mono (cacheCall c) (by omega))

theorem ordered (h : Neutral r p) {l l' : List Act} (hl : p.Does l) (hl' : Ordered [] l') : Ordered [] (l ++ l') :=
  h l hl [] l' (by simp) hl'
end Neutral

theorem Thread.ordered {l : List Act} (h : Thread l) : Ordered [] l := by
  induction h with
  | nil => rfl
  | llrb i h _ ih => exact (Neutral.llrbCall i).ordered h ih
  | reset h _ ih => exact (Neutral.work (r := 0)).ordered h ih
  | tree τ c h _ ih => exact (Neutral.treeCall τ c).ordered h ih
  | location h _ ih => exact (Neutral.work (r := 0)).ordered h ih
  | opening c h _ ih => exact (Neutral.treeWork c).ordered h ih
  | cache c h _ ih => exact (Neutral.cacheCall c).ordered h ih
  | drainer c h _ ih => exact (Neutral.drainerCode c).ordered h ih

theorem Steps.trans {a b c : State} (h : Steps a b) (g : Steps b c) : Steps a c := by
  induction g with
  | refl => exact h
  | tail _ h2 ih => exact ih.tail h2

/-- Every thread holds `held`, keeps to the order, and is listed as the owner. -/
structure Fair (s : State) (held : Nat → List Mutex) : Prop where
  ord : ∀ t, Ordered (held t) (s.todo t)
  own : ∀ m t, s.owner m = some t ↔ m ∈ held t
  dec : ∀ t, (held t).Pairwise fun a b => rank b < rank a

namespace Fair
variable {s s' : State} {held : Nat → List Mutex} {t : Nat} {m : Mutex} {l : List Act}

theorem init {todo : Nat → List Act} (h : ∀ t, Thread (todo t)) : Fair ⟨todo, fun _ => none⟩ (fun _ => []) :=
  ⟨fun t => (h t).ordered, fun _ _ => by simp, fun _ => .nil⟩

theorem lock (h : Fair s held) (ht : s.todo t = .lock m :: l) (hm : s.owner m = none) :
    Fair ⟨Function.update s.todo t l, Function.update s.owner m (some t)⟩ (Function.update held t (m :: held t)) := by
  have ho := h.ord t
  rw [ht] at ho
  refine ⟨fun u => ?_, fun x u => ?_, fun u => ?_⟩
  · by_cases hu : u = t
    · subst hu; simpa using ho.2
    · simpa [Function.update_of_ne hu] using h.ord u
  · by_cases hx : x = m
    · subst hx
      simp only [Function.update_self, Option.some.injEq]
      by_cases hu : u = t
      · subst hu; simp
      · rw [Function.update_of_ne hu]
        have := (h.own x u).not.1 (by simp [hm])
        exact ⟨fun e => absurd e.symm hu, fun e => absurd e this⟩
    · dsimp only
      rw [Function.update_of_ne hx, h.own x u]
      by_cases hu : u = t
      · subst hu; simp [hx]
      · rw [Function.update_of_ne hu]
  · by_cases hu : u = t
    · subst hu; simp only [Function.update_self, List.pairwise_cons]; exact ⟨ho.1, h.dec u⟩
    · simpa [Function.update_of_ne hu] using h.dec u

theorem unlock (h : Fair s held) (ht : s.todo t = .unlock m :: l) : ∃ h', held t = m :: h' ∧ s.owner m = some t ∧
    Fair ⟨Function.update s.todo t l, Function.update s.owner m none⟩ (Function.update held t h') := by
  have ho := h.ord t
  rw [ht] at ho
  obtain ⟨h', e, ho⟩ := ho
  have hd := h.dec t
  rw [e, List.pairwise_cons] at hd
  have hm : m ∉ h' := fun hh => by have := hd.1 m hh; omega
  have hown : s.owner m = some t := (h.own m t).2 (by simp [e])
  refine ⟨h', e, hown, fun u => ?_, fun x u => ?_, fun u => ?_⟩
  · by_cases hu : u = t
    · subst hu; simpa using ho
    · simpa [Function.update_of_ne hu] using h.ord u
  · by_cases hx : x = m
    · subst hx
      simp only [Function.update_self, reduceCtorEq, false_iff]
      by_cases hu : u = t
      · subst hu; simpa using hm
      · rw [Function.update_of_ne hu]
        exact (h.own x u).not.1 (by rw [hown]; simpa using Ne.symm hu)
    · dsimp only
      rw [Function.update_of_ne hx, h.own x u]
      by_cases hu : u = t
      · subst hu; simp [hx, e]
      · rw [Function.update_of_ne hu]
  · by_cases hu : u = t
    · subst hu; simpa using hd.2
    · simpa [Function.update_of_ne hu] using h.dec u

theorem step (h : Fair s held) (ht : s.todo t = .step :: l) : Fair ⟨Function.update s.todo t l, s.owner⟩ held := by
  have ho := h.ord t
  rw [ht] at ho
  change Ordered (held t) l at ho
  refine ⟨fun u => ?_, h.own, h.dec⟩
  by_cases hu : u = t
  · subst hu; simpa using ho
  · simpa [Function.update_of_ne hu] using h.ord u

theorem one (h : Fair s held) (g : Step s s') : ∃ held', Fair s' held' := by
  cases g with
  | lock h1 h2 => exact ⟨_, h.lock h1 h2⟩
  | unlock h1 _ => obtain ⟨h', -, -, hh⟩ := h.unlock h1; exact ⟨_, hh⟩
  | step h1 => exact ⟨_, h.step h1⟩

theorem many (h : Fair s held) (g : Steps s s') : ∃ held', Fair s' held' := by
  induction g with
  | refl => exact ⟨_, h⟩
  | tail _ h2 ih => obtain ⟨_, hh⟩ := ih; exact hh.one h2

/-- A thread about to take a mutex of rank `r` or more can be brought to take it by moving threads that hold mutexes of rank `r` or more. -/
def Advance (r : Nat) : Prop :=
  ∀ s held t m l, Fair s held → s.todo t = .lock m :: l → r ≤ rank m →
    ∃ s' held', Steps s s' ∧ Fair s' held' ∧ s'.todo t = l ∧ held' t = m :: held t ∧
      ∀ u, u ≠ t → (s'.todo u = s.todo u ∧ held' u = held u) ∨ ∃ x ∈ held u, r ≤ rank x

theorem advance_top : Advance 2 := fun s held t m l _ _ h => by cases m <;> simp [rank] at h

/-- A thread that holds a mutex of rank `r` can be brought to let go of it. -/
theorem release {r : Nat} (ha : Advance (r + 1)) (hr : rank m = r) : ∀ n s held t, (s.todo t).length ≤ n → Fair s held → m ∈ held t →
    ∃ s' held', Steps s s' ∧ Fair s' held' ∧ s'.owner m = none ∧
      ∀ u, u ≠ t → (s'.todo u = s.todo u ∧ held' u = held u) ∨ ∃ x ∈ held u, r + 1 ≤ rank x := by
  intro n
  induction n with
  | zero =>
    intro s held t hn h hm
    have ho := h.ord t
    rw [List.length_eq_zero_iff.1 (Nat.le_zero.1 hn)] at ho
    rw [show held t = [] from ho] at hm
    cases hm
  | succ n ih =>
    intro s held t hn h hm
    match ht : s.todo t with
    | [] =>
      have ho := h.ord t
      rw [ht] at ho
      rw [show held t = [] from ho] at hm
      cases hm
    | .step :: l =>
      have h1 := h.step ht
      obtain ⟨s', held', g1, g2, g3, g4⟩ := ih _ held t (by rw [ht] at hn; simp at hn ⊢; omega) h1 hm
      refine ⟨s', held', Steps.trans (.tail (.refl _) (.step ht)) g1, g2, g3, fun u hu => ?_⟩
      have := g4 u hu
      simpa only [Function.update_of_ne hu] using this
    | .unlock x :: l =>
      obtain ⟨h', e, e2, h1⟩ := h.unlock ht
      have hst : Step s _ := .unlock ht (by rw [e2]; simp)
      by_cases hx : x = m
      · subst hx
        exact ⟨_, _, .tail (.refl _) hst, h1, by simp, fun u hu => .inl ⟨by simp [Function.update_of_ne hu], by simp [Function.update_of_ne hu]⟩⟩
      · have hm' : m ∈ h' := by rw [e] at hm; simpa [Ne.symm hx] using hm
        obtain ⟨s', held', g1, g2, g3, g4⟩ := ih _ _ t (by rw [ht] at hn; simp at hn ⊢; omega) h1 (by simpa using hm')
        refine ⟨s', held', Steps.trans (.tail (.refl _) hst) g1, g2, g3, fun u hu => ?_⟩
        have := g4 u hu
        simpa only [Function.update_of_ne hu] using this
    | .lock x :: l =>
      have ho := h.ord t
      rw [ht] at ho
      have hx := ho.1 m hm
      obtain ⟨s1, held1, k1, k2, k3, k4, k5⟩ := ha s held t x l h ht (by omega)
      obtain ⟨s', held', g1, g2, g3, g4⟩ := ih s1 held1 t (by rw [k3]; rw [ht] at hn; simp at hn; omega) k2 (by rw [k4]; simp [hm])
      refine ⟨s', held', k1.trans g1, g2, g3, fun u hu => ?_⟩
      rcases k5 u hu with ⟨e1, e2⟩ | k
      · have := g4 u hu
        rwa [e1, e2] at this
      · exact .inr k

theorem advance_down {r : Nat} (ha : Advance (r + 1)) : Advance r := by
  intro s held t m l h ht hr
  by_cases hr' : r + 1 ≤ rank m
  · obtain ⟨s', held', k1, k2, k3, k4, k5⟩ := ha s held t m l h ht hr'
    refine ⟨s', held', k1, k2, k3, k4, fun u hu => (k5 u hu).imp id ?_⟩
    rintro ⟨x, hx, hx'⟩
    exact ⟨x, hx, by omega⟩
  · have hr : rank m = r := by omega
    have ho := h.ord t
    rw [ht] at ho
    cases hm : s.owner m with
    | none => exact ⟨_, _, .tail (.refl _) (.lock ht hm), h.lock ht hm, by simp, by simp, fun u hu => .inl ⟨by simp [Function.update_of_ne hu], by simp [Function.update_of_ne hu]⟩⟩
    | some v =>
      have hv := (h.own m v).1 hm
      obtain ⟨s1, held1, k1, k2, k3, k4⟩ := release ha hr _ s held v (Nat.le_refl _) h hv
      have hvt : t ≠ v := by
        rintro rfl
        have := ho.1 m hv
        omega
      have kt : s1.todo t = s.todo t ∧ held1 t = held t := by
        rcases k4 t hvt with k | ⟨x, hx, hx'⟩
        · exact k
        · have := ho.1 x hx
          omega
      have ht1 := kt.1.trans ht
      refine ⟨_, _, k1.tail (.lock ht1 k3), k2.lock ht1 k3, by simp, by simp [kt.2], fun u hu => ?_⟩
      by_cases huv : u = v
      · subst huv; exact .inr ⟨m, hv, by omega⟩
      · rcases k4 u huv with ⟨e1, e2⟩ | ⟨x, hx, hx'⟩
        · exact .inl ⟨by simp [Function.update_of_ne hu, e1], by simp [Function.update_of_ne hu, e2]⟩
        · exact .inr ⟨x, hx, by omega⟩

theorem advance : Advance 0 := advance_down (advance_down advance_top)

/-- Any thread can be brought to its end. -/
theorem finish : ∀ n (s : State) held (t : Nat), (s.todo t).length ≤ n → Fair s held → ∃ s', Steps s s' ∧ s'.todo t = [] := by
  intro n
  induction n with
  | zero => intro s held t hn _; exact ⟨s, .refl s, List.length_eq_zero_iff.1 (by omega)⟩
  | succ n ih =>
    intro s held t hn h
    match ht : s.todo t with
    | [] => exact ⟨s, .refl s, ht⟩
    | .step :: l =>
      obtain ⟨s', g1, g2⟩ := ih _ held t (by rw [ht] at hn; simp at hn ⊢; omega) (h.step ht)
      exact ⟨s', Steps.trans (.tail (.refl _) (.step ht)) g1, g2⟩
    | .unlock x :: l =>
      obtain ⟨h', -, e2, h1⟩ := h.unlock ht
      obtain ⟨s', g1, g2⟩ := ih _ _ t (by rw [ht] at hn; simp at hn ⊢; omega) h1
      exact ⟨s', Steps.trans (.tail (.refl _) (.unlock ht (by rw [e2]; simp))) g1, g2⟩
    | .lock x :: l =>
      obtain ⟨s1, held1, k1, k2, k3, -, -⟩ := advance s held t x l h ht (by omega)
      obtain ⟨s', g1, g2⟩ := ih s1 held1 t (by rw [k3]; rw [ht] at hn; simp at hn; omega) k2
      exact ⟨s', k1.trans g1, g2⟩

end Fair

end SM.Conc

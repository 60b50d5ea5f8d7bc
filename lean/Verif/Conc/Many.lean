import Verif.Conc.Lin

/-! Several objects in one memory, each guarded by a mutex of its own. -/

namespace SM.Conc

section
variable {ι : Type} [DecidableEq ι] {Op : ι → Type} {Ans σ : Type}

/-- Where a thread is: not calling; waiting for the mutex of object `i`; holding it, with this left to do; past Unlock, about to return. -/
inductive ManyPlace (σ : Type) (Op : ι → Type) (Ans : Type) where
  | idle
  | waiting (i : ι) (c : Op i)
  | inside (i : ι) (b : Body σ Ans)
  | leaving (i : ι) (a : Ans)

structure ManyState (σ : Type) (Op : ι → Type) (Ans : Type) where
  mem : σ
  thr : Nat → ManyPlace σ Op Ans
  owner : ι → Option Nat

/-- Any number of threads calling what they like on any of the objects, with no object's mutex keeping others from moving. -/
inductive ManyMove (body : (i : ι) → Op i → Body σ Ans) (noise : σ → σ → Prop) : Moves (ManyState σ Op Ans) (Σ i, Op i) (ι × Ans) where
  | call {s : ManyState σ Op Ans} {t : Nat} {i : ι} {c : Op i} : s.thr t = .idle →
      ManyMove body noise s (some (.call t ⟨i, c⟩)) ⟨s.mem, Function.update s.thr t (.waiting i c), s.owner⟩
  | lock {s : ManyState σ Op Ans} {t : Nat} {i : ι} {c : Op i} : s.thr t = .waiting i c → s.owner i = none →
      ManyMove body noise s none ⟨s.mem, Function.update s.thr t (.inside i (body i c)), Function.update s.owner i (some t)⟩
  | act {s : ManyState σ Op Ans} {t : Nat} {i : ι} {f : σ → σ} {k : σ → Body σ Ans} : s.thr t = .inside i (.act f k) →
      ManyMove body noise s none ⟨f s.mem, Function.update s.thr t (.inside i (k s.mem)), s.owner⟩
  | unlock {s : ManyState σ Op Ans} {t : Nat} {i : ι} {a : Ans} : s.thr t = .inside i (.ret a) →
      ManyMove body noise s none ⟨s.mem, Function.update s.thr t (.leaving i a), Function.update s.owner i none⟩
  | ret {s : ManyState σ Op Ans} {t : Nat} {i : ι} {a : Ans} : s.thr t = .leaving i a →
      ManyMove body noise s (some (.ret t (i, a))) ⟨s.mem, Function.update s.thr t .idle, s.owner⟩
  | noise {s : ManyState σ Op Ans} {m : σ} : noise s.mem m → ManyMove body noise s none ⟨m, s.thr, s.owner⟩

/-- The event, if it is one of object `i`. -/
def Event.on (i : ι) : Event (Σ i, Op i) (ι × Ans) → Option (Event (Op i) Ans)
  | .call t ⟨j, c⟩ => if h : j = i then some (.call t (h ▸ c)) else none
  | .ret t (j, a) => if j = i then some (.ret t a) else none

/-- What is seen of object `i`. -/
def only (i : ι) (h : List (Event (Σ i, Op i) (ι × Ans))) : List (Event (Op i) Ans) := h.filterMap (Event.on i)

theorem only_append (i : ι) (h h' : List (Event (Σ i, Op i) (ι × Ans))) : only i (h ++ h') = only i h ++ only i h' := List.filterMap_append

theorem calls_only (i : ι) (h : List (Event (Σ i, Op i) (ι × Ans))) : calls (only i h) ≤ calls h := by
  induction h with
  | nil => exact Nat.le_refl _
  | cons e h ih =>
    rw [← List.singleton_append, only_append, calls_append, calls_append]
    refine Nat.add_le_add ?_ ih
    cases e with
    | call t c =>
      obtain ⟨j, c⟩ := c
      by_cases hj : j = i
      · subst hj; simp [only, Event.on, calls]
      · simp [only, Event.on, hj, calls]
    | ret t a =>
      obtain ⟨j, a⟩ := a
      by_cases hj : j = i
      · subst hj; simp [only, Event.on, calls]
      · simp [only, Event.on, hj, calls]

/-- The thread, as object `i` knows it. -/
def ManyPlace.on (i : ι) : ManyPlace σ Op Ans → Place σ (Op i) Ans
  | .idle => .idle
  | .waiting j c => if h : j = i then .waiting (h ▸ c) else .idle
  | .inside j b => if j = i then .inside b else .idle
  | .leaving j a => if j = i then .leaving a else .idle

/-- The system, as object `i` knows it. -/
def ManyState.on (i : ι) (s : ManyState σ Op Ans) : LockState σ (Op i) Ans := ⟨s.mem, fun t => (s.thr t).on i, s.owner i⟩

/-- The body, one of object `i`, keeps the memory in order, leaves the parts of other objects alone, and does not look at them. -/
inductive Confined (G : σ → Prop) (E : ι → σ → σ → Prop) (i : ι) : Body σ Ans → Prop where
  | ret (a : Ans) : Confined G E i (.ret a)
  | act {f : σ → σ} {k : σ → Body σ Ans} : (∀ s, G s → G (f s)) → (∀ j, j ≠ i → ∀ s, G s → E j s (f s)) → (∀ s s', G s → G s' → E i s s' → E i (f s) (f s')) →
      (∀ s s', G s → G s' → E i s s' → k s = k s') → (∀ s, G s → Confined G E i (k s)) → Confined G E i (.act f k)

omit [DecidableEq ι] in
theorem Confined.blind {G : σ → Prop} {E : ι → σ → σ → Prop} {i : ι} {b : Body σ Ans} (h : Confined G E i b) : b.Blind G (E i) := by
  induction h with
  | ret a => exact .ret a
  | act h1 _ h3 h4 _ ih => exact .act h1 h3 h4 ih

variable {G : σ → Prop} {E : ι → σ → σ → Prop} {body : (i : ι) → Op i → Body σ Ans} {noise : σ → σ → Prop}

/-- The memory is in order, and whoever is inside stays within their object. -/
structure InOrder (G : σ → Prop) (E : ι → σ → σ → Prop) (s : ManyState σ Op Ans) : Prop where
  good : G s.mem
  inside : ∀ t i b, s.thr t = .inside i b → Confined G E i b

omit [DecidableEq ι] in
theorem InOrder.update {s : ManyState σ Op Ans} (h : InOrder G E s) {m : σ} (hm : G m) {t : Nat} {p : ManyPlace σ Op Ans} (hp : ∀ i b, p = .inside i b → Confined G E i b)
    (o : ι → Option Nat) : InOrder G E ⟨m, Function.update s.thr t p, o⟩ := by
  refine ⟨hm, fun u i b hu => ?_⟩
  by_cases hut : u = t
  · subst hut; exact hp i b (by simpa using hu)
  · exact h.inside u i b (by simpa [Function.update_of_ne hut] using hu)

theorem on_update (i : ι) (s : ManyState σ Op Ans) (m : σ) (t : Nat) (p : ManyPlace σ Op Ans) (o : ι → Option Nat) :
    (⟨m, Function.update s.thr t p, o⟩ : ManyState σ Op Ans).on i = ⟨m, Function.update (s.on i).thr t (p.on i), o i⟩ := by
  simp only [ManyState.on, LockState.mk.injEq, true_and, and_true]
  funext u
  by_cases hut : u = t
  · subst hut; simp
  · simp [Function.update_of_ne hut]

@[simp] theorem on_mem (i : ι) (s : ManyState σ Op Ans) : (s.on i).mem = s.mem := rfl

@[simp] theorem on_owner (i : ι) (s : ManyState σ Op Ans) : (s.on i).owner = s.owner i := rfl

theorem update_idle (i : ι) (s : ManyState σ Op Ans) (t : Nat) {p q : ManyPlace σ Op Ans} (hp : s.thr t = p) (hpq : p.on i = q.on i) :
    Function.update (s.on i).thr t (q.on i) = (s.on i).thr := by
  rw [← hpq, ← hp]
  exact Function.update_eq_self ..

/-- Whatever happens, object `i` sees moves of its own, and changes of the memory that are none of its business. -/
theorem InOrder.move (hc : ∀ i c, Confined G E i (body i c)) (hn : ∀ s s', noise s s' → G s → G s' ∧ ∀ i, E i s s') {s s' : ManyState σ Op Ans}
    {e : Option (Event (Σ i, Op i) (ι × Ans))} (h : InOrder G E s) (hm : ManyMove body noise s e s') :
    InOrder G E s' ∧ ∀ i, Shows (LockMove (body i) fun m m' => G m' ∧ E i m m') (s.on i) (only i e.toList) (s'.on i) := by
  cases hm with
  | @call _ t j c ht =>
    refine ⟨h.update h.good (fun _ _ e => by cases e) _, fun i => ?_⟩
    rw [on_update]
    by_cases hj : j = i
    · subst hj
      have := Shows.seen (.refl (R := LockMove (body j) fun m m' => G m' ∧ E j m m') (s.on j)) (.call (t := t) (c := c) (by simp [ManyState.on, ht, ManyPlace.on]))
      simpa [only, Event.on, ManyPlace.on] using this
    · rw [update_idle i s t ht (by simp [ManyPlace.on, hj])]
      simp only [only, Event.on, hj, Option.toList_some, List.filterMap_cons, List.filterMap_nil, dite_false]
      exact .refl (s.on i)
  | @lock _ t j c ht ho =>
    refine ⟨h.update h.good (fun i b e => by cases e; exact hc _ _) _, fun i => ?_⟩
    rw [on_update]
    by_cases hj : j = i
    · subst hj
      have := Shows.unseen (.refl (R := LockMove (body j) fun m m' => G m' ∧ E j m m') (s.on j)) (.lock (t := t) (c := c) (by simp [ManyState.on, ht, ManyPlace.on]) ho)
      simpa [only, Event.on, ManyPlace.on] using this
    · rw [update_idle i s t ht (by simp [ManyPlace.on, hj]), Function.update_of_ne (Ne.symm hj)]
      exact .refl _
  | @act _ t j f k ht =>
    have hb := h.inside t j _ ht
    cases hb with
    | act h1 h2 h3 h4 h5 =>
      refine ⟨h.update (h1 _ h.good) (fun i b e => by cases e; exact h5 _ h.good) _, fun i => ?_⟩
      rw [on_update]
      by_cases hj : j = i
      · subst hj
        have := Shows.unseen (.refl (R := LockMove (body j) fun m m' => G m' ∧ E j m m') (s.on j)) (.act (t := t) (f := f) (k := k) (by simp [ManyState.on, ht, ManyPlace.on]))
        simpa [only, Event.on, ManyPlace.on] using this
      · rw [update_idle i s t ht (by simp [ManyPlace.on, hj])]
        exact .unseen (.refl _) (.noise (s := s.on i) ⟨h1 _ h.good, h2 i (Ne.symm hj) _ h.good⟩)
  | @unlock _ t j a ht =>
    refine ⟨h.update h.good (fun _ _ e => by cases e) _, fun i => ?_⟩
    rw [on_update]
    by_cases hj : j = i
    · subst hj
      have := Shows.unseen (.refl (R := LockMove (body j) fun m m' => G m' ∧ E j m m') (s.on j)) (.unlock (t := t) (a := a) (by simp [ManyState.on, ht, ManyPlace.on]))
      simpa [only, Event.on, ManyPlace.on] using this
    · rw [update_idle i s t ht (by simp [ManyPlace.on, hj]), Function.update_of_ne (Ne.symm hj)]
      exact .refl _
  | @ret _ t j a ht =>
    refine ⟨h.update h.good (fun _ _ e => by cases e) _, fun i => ?_⟩
    rw [on_update]
    by_cases hj : j = i
    · subst hj
      have := Shows.seen (.refl (R := LockMove (body j) fun m m' => G m' ∧ E j m m') (s.on j)) (.ret (t := t) (a := a) (by simp [ManyState.on, ht, ManyPlace.on]))
      simpa [only, Event.on, ManyPlace.on] using this
    · rw [update_idle i s t ht (by simp [ManyPlace.on, hj])]
      simp only [only, Event.on, hj, Option.toList_some, List.filterMap_cons, List.filterMap_nil, ite_false]
      exact .refl (s.on i)
  | @noise _ m hm =>
    obtain ⟨k1, k2⟩ := hn _ _ hm h.good
    exact ⟨⟨k1, h.inside⟩, fun i => .unseen (.refl _) (.noise (s := s.on i) ⟨k1, k2 i⟩)⟩

/-- What is seen of one object among others. -/
theorem shows_only (hc : ∀ i c, Confined G E i (body i c)) (hn : ∀ s s', noise s s' → G s → G s' ∧ ∀ i, E i s s') {s0 : σ} (h0 : G s0)
    {h : List (Event (Σ i, Op i) (ι × Ans))} {x : ManyState σ Op Ans} (hx : Shows (ManyMove body noise) ⟨s0, fun _ => .idle, fun _ => none⟩ h x) (i : ι) :
    Shows (LockMove (body i) fun m m' => G m' ∧ E i m m') ⟨s0, fun _ => .idle, none⟩ (only i h) (x.on i) := by
  suffices ∀ x0 : ManyState σ Op Ans, x0 = ⟨s0, fun _ => .idle, fun _ => none⟩ → Shows (ManyMove body noise) x0 h x →
      InOrder G E x ∧ Shows (LockMove (body i) fun m m' => G m' ∧ E i m m') (x0.on i) (only i h) (x.on i) from (this _ rfl hx).2
  clear hx
  intro x0 e0 hx
  induction hx with
  | refl => subst e0; exact ⟨⟨h0, fun _ _ _ e => by cases e⟩, .refl _⟩
  | seen _ r ih =>
    obtain ⟨h1, h2⟩ := ih
    obtain ⟨h3, h4⟩ := h1.move hc hn r
    exact ⟨h3, by rw [only_append]; exact h2.trans (h4 i)⟩
  | unseen _ r ih =>
    obtain ⟨h1, h2⟩ := ih
    obtain ⟨h3, h4⟩ := h1.move hc hn r
    exact ⟨h3, by simpa [only] using h2.trans (h4 i)⟩

/-- Objects that stay out of each other's way are linearizable if each of them is, used alone. -/
theorem linearizable_only (hc : ∀ i c, Confined G E i (body i c)) (hn : ∀ s s', noise s s' → G s → G s' ∧ ∀ i, E i s s') {s0 : σ} (h0 : G s0)
    {h : List (Event (Σ i, Op i) (ι × Ans))} {x : ManyState σ Op Ans} (hx : Shows (ManyMove body noise) ⟨s0, fun _ => .idle, fun _ => none⟩ h x) (i : ι)
    (he : Equivalence (E i)) : Linearizable (fun s c a s' => (body i c).eval s = (a, s')) s0 (only i h) := by
  have H : Guarded G (E i) (body i) (fun m m' => G m' ∧ E i m m') fun s c a s' => (body i c).eval s = (a, s') :=
    { equiv := he
      blind := fun c => (hc i c).blind
      quiet := fun _ _ h _ => h
      does := fun c s s' g g' e => by
        obtain ⟨k1, k2⟩ := (hc i c).blind.eval g g' e
        exact ⟨((body i c).eval s').2, Prod.ext k1.symm rfl, k2, (hc i c).blind.good g'⟩ }
  exact H.linearizable h0 (shows_only hc hn h0 hx i)

end

end SM.Conc

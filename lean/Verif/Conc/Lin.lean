import Mathlib.Logic.Function.Basic

/-! Concurrent calls on one object guarded by a mutex, in steps as small as one likes; and what it means that they take effect one at a time. -/

namespace SM.Conc

universe u

/-- What a call does between Lock and Unlock, step by step: each step changes the memory, and what follows may depend on what it saw. -/
inductive Body (σ α : Type) where
  | ret (a : α)
  | act (f : σ → σ) (k : σ → Body σ α)

namespace Body
variable {σ α β : Type}

/-- The body run to its end with nothing in between. -/
def eval : Body σ α → σ → α × σ
  | .ret a, s => (a, s)
  | .act f k, s => eval (k s) (f s)

def bind : Body σ α → (α → Body σ β) → Body σ β
  | .ret a, g => g a
  | .act f k, g => .act f fun s => bind (k s) g

theorem eval_bind (b : Body σ α) (g : α → Body σ β) : ∀ s, (b.bind g).eval s = (g (b.eval s).1).eval (b.eval s).2 := by
  induction b with
  | ret a => exact fun _ => rfl
  | act f k ih => exact fun s => ih s _

/-- The body keeps the memory in order, as `G` says, and takes no notice of the differences `E` ignores. -/
inductive Blind (G : σ → Prop) (E : σ → σ → Prop) : Body σ α → Prop where
  | ret (a : α) : Blind G E (.ret a)
  | act {f : σ → σ} {k : σ → Body σ α} : (∀ s, G s → G (f s)) → (∀ s s', G s → G s' → E s s' → E (f s) (f s')) → (∀ s s', G s → G s' → E s s' → k s = k s') →
      (∀ s, G s → Blind G E (k s)) → Blind G E (.act f k)

theorem Blind.good {G : σ → Prop} {E : σ → σ → Prop} {b : Body σ α} (h : Blind G E b) : ∀ {s}, G s → G (b.eval s).2 := by
  induction h with
  | ret a => exact fun h => h
  | act h0 _ _ _ ih => exact fun {s} h => ih s h (h0 s h)

theorem Blind.eval {G : σ → Prop} {E : σ → σ → Prop} {b : Body σ α} (h : Blind G E b) :
    ∀ {s s'}, G s → G s' → E s s' → (b.eval s).1 = (b.eval s').1 ∧ E (b.eval s).2 (b.eval s').2 := by
  induction h with
  | ret a => exact fun _ _ e => ⟨rfl, e⟩
  | act h0 h1 h2 _ ih =>
    intro s s' g g' e
    have := ih s g (h0 s g) (h0 s' g') (h1 s s' g g' e)
    simp only [Body.eval]
    rw [h2 s s' g g' e] at this ⊢
    exact this

theorem Blind.bind {G : σ → Prop} {E : σ → σ → Prop} {b : Body σ α} {g : α → Body σ β} (h : Blind G E b) (hg : ∀ a, Blind G E (g a)) : Blind G E (b.bind g) := by
  induction h with
  | ret a => exact hg a
  | act h0 h1 h2 _ ih => exact .act h0 h1 (fun s s' g g' e => by rw [h2 s s' g g' e]) ih

end Body

/-- What can be seen of a thread from outside: it calls, it returns. -/
inductive Event (Op Ans : Type) where
  | call (t : Nat) (c : Op)
  | ret (t : Nat) (a : Ans)

section
variable {Op Ans σ : Type}

/-- The moves of a system, with what can be seen of them. -/
abbrev Moves (X Op Ans : Type) := X → Option (Event Op Ans) → X → Prop

/-- From one state to another, showing these events in this order. -/
inductive Shows {X : Type} (R : Moves X Op Ans) : X → List (Event Op Ans) → X → Prop where
  | refl (x : X) : Shows R x [] x
  | seen {x y z : X} {h : List (Event Op Ans)} {e : Event Op Ans} : Shows R x h y → R y (some e) z → Shows R x (h ++ [e]) z
  | unseen {x y z : X} {h : List (Event Op Ans)} : Shows R x h y → R y none z → Shows R x h z

/-! ### One at a time -/

/-- Where a thread is, when calls take effect one at a time: not calling; it has called; its call has taken effect and this is the answer. -/
inductive Atom (Op Ans : Type) where
  | idle
  | called (c : Op)
  | done (a : Ans)

structure AtomState (σ Op Ans : Type) where
  mem : σ
  thr : Nat → Atom Op Ans

/-- An object on which every call takes effect at one moment between its being called and its returning. `spec s c a s'`: in state `s` the call
may answer `a` and leave `s'`. -/
inductive AtomMove (spec : σ → Op → Ans → σ → Prop) : Moves (AtomState σ Op Ans) Op Ans where
  | call {s : AtomState σ Op Ans} {t : Nat} {c : Op} : s.thr t = .idle → AtomMove spec s (some (.call t c)) ⟨s.mem, Function.update s.thr t (.called c)⟩
  | effect {s : AtomState σ Op Ans} {t : Nat} {c : Op} {a : Ans} {m : σ} : s.thr t = .called c → spec s.mem c a m →
      AtomMove spec s none ⟨m, Function.update s.thr t (.done a)⟩
  | ret {s : AtomState σ Op Ans} {t : Nat} {a : Ans} : s.thr t = .done a → AtomMove spec s (some (.ret t a)) ⟨s.mem, Function.update s.thr t .idle⟩

/-- The events could have come from calls taking effect one at a time, each between its call and its return: the order in which they took effect
is consistent with real time, and each answer is the one due in that order. -/
def Linearizable (spec : σ → Op → Ans → σ → Prop) (s0 : σ) (h : List (Event Op Ans)) : Prop :=
  ∃ s, Shows (AtomMove spec) ⟨s0, fun _ => .idle⟩ h s

/-! ### With a mutex -/

/-- Where a thread is: not calling; waiting for the mutex; holding it, with this left to do; past Unlock, about to return. -/
inductive Place (σ Op Ans : Type) where
  | idle
  | waiting (c : Op)
  | inside (b : Body σ Ans)
  | leaving (a : Ans)

structure LockState (σ Op Ans : Type) where
  mem : σ
  thr : Nat → Place σ Op Ans
  owner : Option Nat

/-- Any number of threads calling what they like: Lock, the steps of the body, Unlock, return. Between any two steps others move, and the memory may
also be changed, by those who do not take the mutex, as `noise` says. -/
inductive LockMove (body : Op → Body σ Ans) (noise : σ → σ → Prop) : Moves (LockState σ Op Ans) Op Ans where
  | call {s : LockState σ Op Ans} {t : Nat} {c : Op} : s.thr t = .idle → LockMove body noise s (some (.call t c)) ⟨s.mem, Function.update s.thr t (.waiting c), s.owner⟩
  | lock {s : LockState σ Op Ans} {t : Nat} {c : Op} : s.thr t = .waiting c → s.owner = none →
      LockMove body noise s none ⟨s.mem, Function.update s.thr t (.inside (body c)), some t⟩
  | act {s : LockState σ Op Ans} {t : Nat} {f : σ → σ} {k : σ → Body σ Ans} : s.thr t = .inside (.act f k) →
      LockMove body noise s none ⟨f s.mem, Function.update s.thr t (.inside (k s.mem)), s.owner⟩
  | unlock {s : LockState σ Op Ans} {t : Nat} {a : Ans} : s.thr t = .inside (.ret a) →
      LockMove body noise s none ⟨s.mem, Function.update s.thr t (.leaving a), none⟩
  | ret {s : LockState σ Op Ans} {t : Nat} {a : Ans} : s.thr t = .leaving a → LockMove body noise s (some (.ret t a)) ⟨s.mem, Function.update s.thr t .idle, s.owner⟩
  | noise {s : LockState σ Op Ans} {m : σ} : noise s.mem m → LockMove body noise s none ⟨m, s.thr, s.owner⟩

/-! ### The argument -/

/-- How a thread of the system with the mutex appears in the one without. -/
def Seen : Place σ Op Ans → Atom Op Ans → Prop
  | .idle, .idle => True
  | .waiting c, .called c' => c = c'
  | .inside _, .done _ => True
  | .leaving a, .done a' => a = a'
  | _, _ => False

/-- The system with the mutex is where the other will be when the thread inside has finished. -/
structure Sim (G : σ → Prop) (E : σ → σ → Prop) (x : LockState σ Op Ans) (y : AtomState σ Op Ans) : Prop where
  good : G x.mem
  good' : G y.mem
  seen : ∀ t, Seen (x.thr t) (y.thr t)
  inside : ∀ t b, x.thr t = .inside b → x.owner = some t
  free : x.owner = none → E x.mem y.mem
  held : ∀ t, x.owner = some t → ∃ b, x.thr t = .inside b ∧ b.Blind G E ∧ E (b.eval x.mem).2 y.mem ∧ y.thr t = .done (b.eval x.mem).1

variable {G : σ → Prop} {E : σ → σ → Prop} {body : Op → Body σ Ans} {noise : σ → σ → Prop} {spec : σ → Op → Ans → σ → Prop}

/-- What is needed: the parts `E` compares are left alone by the noise, no body looks at the others, and every body, run without interruption, does
what the specification says; all this as long as the memory is in order. -/
structure Guarded (G : σ → Prop) (E : σ → σ → Prop) (body : Op → Body σ Ans) (noise : σ → σ → Prop) (spec : σ → Op → Ans → σ → Prop) : Prop where
  equiv : Equivalence E
  blind : ∀ c, (body c).Blind G E
  quiet : ∀ s s', noise s s' → G s → G s' ∧ E s s'
  does : ∀ c s s', G s → G s' → E s s' → ∃ m, spec s' c ((body c).eval s).1 m ∧ E ((body c).eval s).2 m ∧ G m

theorem Shows.trans {X : Type} {R : Moves X Op Ans} {x y z : X} {h h' : List (Event Op Ans)} (a : Shows R x h y) (b : Shows R y h' z) : Shows R x (h ++ h') z := by
  induction b with
  | refl => simpa using a
  | seen _ r ih => rw [← List.append_assoc]; exact ih.seen r
  | unseen _ r ih => exact ih.unseen r

theorem seen_update {x : Nat → Place σ Op Ans} {y : Nat → Atom Op Ans} {t : Nat} {p : Place σ Op Ans} {q : Atom Op Ans} (h : ∀ t, Seen (x t) (y t)) (hp : Seen p q) (u : Nat) :
    Seen (Function.update x t p u) (Function.update y t q u) := by
  by_cases hu : u = t
  · subst hu; simpa using hp
  · rw [Function.update_of_ne hu, Function.update_of_ne hu]; exact h u

theorem seen_update_left {x : Nat → Place σ Op Ans} {y : Nat → Atom Op Ans} {t : Nat} {p : Place σ Op Ans} (h : ∀ t, Seen (x t) (y t)) (hp : Seen p (y t)) (u : Nat) :
    Seen (Function.update x t p u) (y u) := by
  by_cases hu : u = t
  · subst hu; simpa using hp
  · rw [Function.update_of_ne hu]; exact h u

theorem Sim.move (H : Guarded G E body noise spec) {x x' : LockState σ Op Ans} {y : AtomState σ Op Ans} {e : Option (Event Op Ans)} (h : Sim G E x y)
    (hm : LockMove body noise x e x') : ∃ y', Shows (AtomMove spec) y e.toList y' ∧ Sim G E x' y' := by
  cases hm with
  | @call _ t c ht =>
    have hs := h.seen t
    rw [ht] at hs
    have hy : y.thr t = .idle := by
      match hy : y.thr t with
      | .idle => rfl
      | .called _ => rw [hy] at hs; cases hs
      | .done _ => rw [hy] at hs; cases hs
    refine ⟨_, .seen (.refl _) (.call hy), h.good, h.good', seen_update h.seen rfl, fun u b hu => ?_, h.free, fun u hu => ?_⟩
    · by_cases hut : u = t
      · subst hut; simp at hu
      · exact h.inside u b (by simpa [Function.update_of_ne hut] using hu)
    · obtain ⟨b, h1, h2, h3, h4⟩ := h.held u hu
      have hut : u ≠ t := by rintro rfl; rw [ht] at h1; cases h1
      exact ⟨b, by simpa [Function.update_of_ne hut] using h1, h2, h3, by simpa [Function.update_of_ne hut] using h4⟩
  | @lock _ t c ht ho =>
    have hs := h.seen t
    rw [ht] at hs
    have hy : y.thr t = .called c := by
      match hy : y.thr t with
      | .idle => rw [hy] at hs; cases hs
      | .called _ => rw [hy] at hs; cases hs; rfl
      | .done _ => rw [hy] at hs; cases hs
    obtain ⟨m, k1, k2, k3⟩ := H.does c _ _ h.good h.good' (h.free ho)
    refine ⟨_, .unseen (.refl _) (.effect hy k1), h.good, k3, seen_update h.seen trivial, fun u b hu => ?_, nofun, fun u hu => ?_⟩
    · by_cases hut : u = t
      · rw [hut]
      · have := h.inside u b (by simpa [Function.update_of_ne hut] using hu)
        rw [ho] at this
        cases this
    · cases hu
      exact ⟨body c, by simp, H.blind c, k2, by simp⟩
  | @act _ t f k ht =>
    have ho := h.inside t _ ht
    obtain ⟨b, h1, h2, h3, h4⟩ := h.held t ho
    rw [ht] at h1
    cases h1
    cases h2 with
    | act g0 g1 g2 g3 =>
      refine ⟨y, .refl _, g0 _ h.good, h.good', seen_update_left h.seen (by rw [h4]; trivial), fun u b hu => ?_, fun hn => (by rw [ho] at hn; cases hn), fun u hu => ?_⟩
      · by_cases hut : u = t
        · rw [hut]; exact ho
        · exact h.inside u b (by simpa [Function.update_of_ne hut] using hu)
      · have : u = t := by rw [ho] at hu; exact (Option.some.inj hu).symm
        subst this
        exact ⟨_, by simp, g3 _ h.good, h3, h4⟩
  | @unlock _ t a ht =>
    have ho := h.inside t _ ht
    obtain ⟨b, h1, h2, h3, h4⟩ := h.held t ho
    rw [ht] at h1
    cases h1
    refine ⟨y, .refl _, h.good, h.good', seen_update_left h.seen (by rw [h4]; rfl), fun u b hu => ?_, fun _ => h3, nofun⟩
    by_cases hut : u = t
    · subst hut; simp at hu
    · have := h.inside u b (by simpa [Function.update_of_ne hut] using hu)
      rw [ho] at this
      exact absurd (Option.some.inj this).symm hut
  | @ret _ t a ht =>
    have hs := h.seen t
    rw [ht] at hs
    have hy : y.thr t = .done a := by
      match hy : y.thr t with
      | .idle => rw [hy] at hs; cases hs
      | .called _ => rw [hy] at hs; cases hs
      | .done _ => rw [hy] at hs; cases hs; rfl
    refine ⟨_, .seen (.refl _) (.ret hy), h.good, h.good', seen_update h.seen trivial, fun u b hu => ?_, h.free, fun u hu => ?_⟩
    · by_cases hut : u = t
      · subst hut; simp at hu
      · exact h.inside u b (by simpa [Function.update_of_ne hut] using hu)
    · obtain ⟨b, h1, h2, h3, h4⟩ := h.held u hu
      have hut : u ≠ t := by rintro rfl; rw [ht] at h1; cases h1
      exact ⟨b, by simpa [Function.update_of_ne hut] using h1, h2, h3, by simpa [Function.update_of_ne hut] using h4⟩
  | @noise _ m hn =>
    obtain ⟨g, e⟩ := H.quiet _ _ hn h.good
    refine ⟨y, .refl _, g, h.good', h.seen, h.inside, fun ho => H.equiv.trans (H.equiv.symm e) (h.free ho), fun u hu => ?_⟩
    obtain ⟨b, h1, h2, h3, h4⟩ := h.held u hu
    have := h2.eval h.good g e
    exact ⟨b, h1, h2, H.equiv.trans (H.equiv.symm this.2) h3, by rw [h4, this.1]⟩

/-- Calls guarded by one mutex take effect one at a time, however their steps interleave. -/
theorem Guarded.linearizable (H : Guarded G E body noise spec) {s0 : σ} (h0 : G s0) {h : List (Event Op Ans)} {x : LockState σ Op Ans}
    (hx : Shows (LockMove body noise) ⟨s0, fun _ => .idle, none⟩ h x) : Linearizable spec s0 h := by
  suffices ∀ x0 : LockState σ Op Ans, x0 = ⟨s0, fun _ => .idle, none⟩ → Shows (LockMove body noise) x0 h x →
      ∃ y, Shows (AtomMove spec) ⟨s0, fun _ => .idle⟩ h y ∧ Sim G E x y from (this _ rfl hx).imp fun _ h => h.1
  clear hx
  intro x0 e0 hx
  induction hx with
  | refl => subst e0; exact ⟨_, .refl _, h0, h0, fun _ => trivial, nofun, fun _ => H.equiv.refl _, nofun⟩
  | seen _ r ih =>
    obtain ⟨y, h1, h2⟩ := ih
    obtain ⟨y', h3, h4⟩ := h2.move H r
    exact ⟨y', h1.trans h3, h4⟩
  | unseen _ r ih =>
    obtain ⟨y, h1, h2⟩ := ih
    obtain ⟨y', h3, h4⟩ := h2.move H r
    exact ⟨y', by simpa using h1.trans h3, h4⟩

/-- From one specification to a more abstract one. -/
theorem Linearizable.refine {σ' : Type} {spec' : σ' → Op → Ans → σ' → Prop} (R : σ → σ' → Prop)
    (hR : ∀ s s' c a m, R s s' → spec s c a m → ∃ m', spec' s' c a m' ∧ R m m') {s0 : σ} {s0' : σ'} (h0 : R s0 s0') {h : List (Event Op Ans)}
    (hl : Linearizable spec s0 h) : Linearizable spec' s0' h := by
  obtain ⟨s, hs⟩ := hl
  suffices ∀ x0 : AtomState σ Op Ans, x0 = ⟨s0, fun _ => .idle⟩ → Shows (AtomMove spec) x0 h s →
      ∃ m', Shows (AtomMove spec') ⟨s0', fun _ => .idle⟩ h ⟨m', s.thr⟩ ∧ R s.mem m' from (this _ rfl hs).elim fun m h => ⟨_, h.1⟩
  clear hs
  intro x0 e0 hs
  induction hs with
  | refl => subst e0; exact ⟨_, .refl _, h0⟩
  | seen _ r ih =>
    obtain ⟨m, h1, h2⟩ := ih
    cases r with
    | call ht => exact ⟨m, h1.seen (.call ht), h2⟩
    | ret ht => exact ⟨m, h1.seen (.ret ht), h2⟩
  | unseen _ r ih =>
    obtain ⟨m, h1, h2⟩ := ih
    cases r with
    | effect ht hm =>
      obtain ⟨m', k1, k2⟩ := hR _ _ _ _ _ h2 hm
      exact ⟨m', h1.unseen (.effect ht k1), k2⟩

/-- How many calls were made. -/
def calls : List (Event Op Ans) → Nat
  | [] => 0
  | .call _ _ :: h => calls h + 1
  | .ret _ _ :: h => calls h

theorem calls_append : ∀ h h' : List (Event Op Ans), calls (h ++ h') = calls h + calls h'
  | [], h' => by simp [calls]
  | .call _ _ :: h, h' => by simp only [List.cons_append, calls, calls_append h h']; omega
  | .ret _ _ :: h, h' => by simp only [List.cons_append, calls, calls_append h h']

/-- From one specification to another, the number of calls in view: no more take effect than are made. -/
theorem Linearizable.refineN {σ' : Type} {spec' : σ' → Op → Ans → σ' → Prop} (R : Nat → σ → σ' → Prop) (N : Nat)
    (hR : ∀ n s s' c a m, n < N → R n s s' → spec s c a m → ∃ m', spec' s' c a m' ∧ R (n + 1) m m') {s0 : σ} {s0' : σ'} (h0 : R 0 s0 s0')
    {h : List (Event Op Ans)} (hN : calls h ≤ N) (hl : Linearizable spec s0 h) : Linearizable spec' s0' h := by
  obtain ⟨s, hs⟩ := hl
  suffices ∀ x0 : AtomState σ Op Ans, x0 = ⟨s0, fun _ => .idle⟩ → Shows (AtomMove spec) x0 h s → calls h ≤ N →
      ∃ m' n, ∃ P : List Nat, Shows (AtomMove spec') ⟨s0', fun _ => .idle⟩ h ⟨m', s.thr⟩ ∧ R n s.mem m' ∧
        (∀ t c, s.thr t = .called c → t ∈ P) ∧ n + P.length ≤ calls h from
    (this _ rfl hs hN).elim fun m ⟨n, P, h⟩ => ⟨_, h.1⟩
  clear hs hN
  intro x0 e0 hs
  induction hs with
  | refl => subst e0; exact fun _ => ⟨_, 0, [], .refl _, h0, nofun, by simp [calls]⟩
  | @seen y z h e _ r ih =>
    intro hN
    rw [calls_append] at hN
    obtain ⟨m, n, P, h1, h2, h3, h4⟩ := ih (by omega)
    cases r with
    | @call _ t c ht =>
      refine ⟨m, n, t :: P, h1.seen (.call ht), h2, fun u c' hu => ?_, by simp only [calls_append, calls, List.length_cons]; omega⟩
      by_cases hut : u = t
      · simp [hut]
      · exact List.mem_cons_of_mem _ (h3 u c' (by simpa [Function.update_of_ne hut] using hu))
    | @ret _ t a ht =>
      refine ⟨m, n, P, h1.seen (.ret ht), h2, fun u c' hu => ?_, by simp only [calls_append, calls]; omega⟩
      by_cases hut : u = t
      · subst hut; simp at hu
      · exact h3 u c' (by simpa [Function.update_of_ne hut] using hu)
  | @unseen y z h _ r ih =>
    intro hN
    obtain ⟨m, n, P, h1, h2, h3, h4⟩ := ih hN
    cases r with
    | @effect _ t c a m' ht hm =>
      have htP := h3 t c ht
      have hlen := List.length_pos_of_mem htP
      obtain ⟨m'', k1, k2⟩ := hR n _ _ _ _ _ (by omega) h2 hm
      refine ⟨m'', n + 1, P.erase t, h1.unseen (.effect ht k1), k2, fun u c' hu => ?_, by rw [List.length_erase_of_mem htP]; omega⟩
      by_cases hut : u = t
      · subst hut; simp at hu
      · exact (List.mem_erase_of_ne hut).2 (h3 u c' (by simpa [Function.update_of_ne hut] using hu))

end

end SM.Conc

import Verif.Conc.LocksProofs
import Verif.Conc.Split
import Verif.Props.Store
import Verif.Props.Dump
import Verif.Props.Cost

/-! C45, C46: concurrent use. -/

namespace SM.Props

open Conc

/-! ### C45 -/

section
variable {todo : Nat → List Act} {s : State} {t : Nat}

/-- **C45.** Whatever calls any number of threads make, on whatever maps sharing whatever caches, however many drainers run besides: as long as
some thread has not finished, some thread can go on. -/
theorem C45_no_deadlock (h : ∀ t, Thread (todo t)) (hs : Steps ⟨todo, fun _ => none⟩ s) (ht : s.todo t ≠ []) : ∃ s', Step s s' := by
  obtain ⟨held, hf⟩ := (Fair.init h).many hs
  obtain ⟨s', h1, h2⟩ := Fair.finish _ s held t (Nat.le_refl _) hf
  clear hf
  suffices ∀ a b, Steps a b → a = b ∨ ∃ c, Step a c by
    rcases this _ _ h1 with rfl | h
    · exact absurd h2 ht
    · exact h
  intro a b hab
  induction hab with
  | refl => exact .inl rfl
  | tail _ g ih =>
    rcases ih with rfl | ih
    · exact .inr ⟨_, g⟩
    · exact .inr ih

/-- **C45.** No thread is left behind either: from every state that can be reached, each thread can still finish. -/
theorem C45_every_thread_can_finish (h : ∀ t, Thread (todo t)) (hs : Steps ⟨todo, fun _ => none⟩ s) (t : Nat) : ∃ s', Steps s s' ∧ s'.todo t = [] := by
  obtain ⟨held, hf⟩ := (Fair.init h).many hs
  exact Fair.finish _ s held t (Nat.le_refl _) hf

/-- **C45.** A thread unlocks only what it holds (Go ends the program otherwise), and never locks what it holds. -/
theorem C45_locks_are_paired (h : ∀ t, Thread (todo t)) (hs : Steps ⟨todo, fun _ => none⟩ s) {m : Mutex} {l : List Act} :
    (s.todo t = .unlock m :: l → s.owner m = some t) ∧ (s.todo t = .lock m :: l → s.owner m ≠ some t) := by
  obtain ⟨held, hf⟩ := (Fair.init h).many hs
  refine ⟨fun ht => ?_, fun ht ho => ?_⟩
  · obtain ⟨-, -, ho, -⟩ := hf.unlock ht
    exact ho
  · have h1 := hf.ord t
    rw [ht] at h1
    have := h1.1 m ((hf.own m t).1 ho)
    omega

end

/-- Thread 0 reads on map 0 (one LLRB, one section of cache 5); thread 1 is the drainer of cache 5, evicting from map 0. -/
def sampleTodo : Nat → List Act
  | 0 => [.lock (.tree 0), .lock (.llrb 3), .step, .unlock (.llrb 3), .lock (.cache 5), .step, .unlock (.cache 5), .unlock (.tree 0)]
  | 1 => [.lock (.cache 5), .step, .unlock (.cache 5), .lock (.tree 0), .lock (.cache 5), .step, .unlock (.cache 5), .unlock (.tree 0),
          .lock (.cache 5), .step, .unlock (.cache 5)]
  | _ => []

theorem work_one : work.Does [.step] := .more (.act .step) .done

theorem guarded_one (m : Mutex) : (guarded m work).Does [.lock m, .step, .unlock m] :=
  .seq (l := [.lock m]) (.act _) (.seq (l := [.step]) work_one (.act _))

theorem sampleTodo_threads : ∀ t, Thread (sampleTodo t)
  | 0 => by
      refine .tree 0 (some 5) (l := _) (l' := []) (.seq (l := [.lock (.tree 0)]) (.act _) (.seq
        (l := [.lock (.llrb 3), .step, .unlock (.llrb 3), .lock (.cache 5), .step, .unlock (.cache 5)]) ?_ (.act (.unlock (.tree 0))))) .nil
      exact .more (l := [.lock (.llrb 3), .step, .unlock (.llrb 3)]) (.left (.any 3 (guarded_one _)))
        (.more (l := [.lock (.cache 5), .step, .unlock (.cache 5)]) (.right (.left (guarded_one _))) .done)
  | 1 => by
      refine .drainer 5 (l := _) (l' := []) (.seq (l := [.lock (.cache 5), .step, .unlock (.cache 5), .lock (.tree 0), .lock (.cache 5), .step, .unlock (.cache 5), .unlock (.tree 0)])
        (.more (l := [.lock (.cache 5), .step, .unlock (.cache 5), .lock (.tree 0), .lock (.cache 5), .step, .unlock (.cache 5), .unlock (.tree 0)])
          (.seq (guarded_one _) (.any 0 (.seq (l := [.lock (.tree 0)]) (.act _) (.seq (l := [.lock (.cache 5), .step, .unlock (.cache 5)]) (.right ?_) (.act _))))) .done) (guarded_one _)) .nil
      exact .more (l := [.lock (.cache 5), .step, .unlock (.cache 5)]) (.right (.left (guarded_one _))) .done
  | (_ + 2) => .nil

/-- Thread 1 waits for the map that thread 0 holds. -/
example : ∃ s, Steps ⟨sampleTodo, fun _ => none⟩ s ∧ s.owner (.tree 0) = some 0 ∧ ∃ l, s.todo 1 = .lock (.tree 0) :: l :=
  ⟨_, .tail (.tail (.tail (.tail (.refl _) (.lock (t := 0) (m := .tree 0) rfl rfl)) (.lock (t := 1) (m := .cache 5) rfl rfl)) (.step (t := 1) rfl)) (.unlock (t := 1) (m := .cache 5) rfl nofun),
    rfl, _, rfl⟩

example := C45_every_thread_can_finish sampleTodo_threads (.tail (.refl _) (.lock (t := 0) (m := .tree 0) rfl rfl)) 1

/-! ### C46, in-memory maps -/

section
open Spec LLRB LLRB.Tree

variable {K V : Type} {cmp : Compare K} {Valid : K → Prop}

/-- The calls of the SortedMap interface; Dump, with a DumpKey that fails for the keys in `bad`; Reset, as if it took the mutex (see C57). -/
inductive LlrbCall (K V : Type) where
  | op (o : Op K V)
  | dump (bad : K → Bool)
  | reset

/-- What they return; of Dump also what is printed. -/
inductive LlrbReply (K V : Type) where
  | ans (r : Ans K V × Option Err)
  | dumped (d : List (Line K) × Option Err)
  | unit

/-- The calls, with Put of keys the compare function knows. -/
abbrev LlrbOp (K V : Type) (Valid : K → Prop) := { c : LlrbCall K V // ∀ o k, c = .op o → o.putKey? = some k → Valid k }

/-- The calls on a tree; `none`: panic. -/
def llrbStep (cmp : Compare K) (t : Tree K V) : LlrbCall K V → Option (LlrbReply K V × Tree K V)
  | .op o => (Tree.step cmp t o).map fun r => (.ans r.1, r.2)
  | .dump bad => some (.dumped (dump bad t), t)
  | .reset => (Tree.call cmp t .reset).map fun r => (.unit, r.2)

/-- What a sorted list may answer; a panic is no answer. -/
def sortedSpec (cmp : Compare K) (l : List (K × V)) (c : LlrbOp K V Valid) (a : Option (LlrbReply K V)) (l' : List (K × V)) : Prop :=
  match c.1 with
  | .op o => ∃ r, a = some (.ans r) ∧ Agrees r (stepE cmp l o).1 ∧ l' = (stepE cmp l o).2
  | .dump bad => ∃ d, a = some (.dumped d) ∧ FullDump bad l d ∧ l' = l
  | .reset => a = some .unit ∧ l' = []

/-- **C46.** Calls of the SortedMap interface on one LLRB tree from any number of threads, their steps interleaved in any way the mutex allows, answer as
if they were made one at a time on a sorted list, in an order consistent with real time. The memory may be anything (`σ`) that represents a tree, and the
calls may go about their work in steps as small as one likes, as long as each, run alone, does what its model does. -/
theorem C46_llrb_linearizable (H : Lawful cmp Valid) {σ : Type} (Rep : σ → Tree K V → Prop) {body : LlrbOp K V Valid → Body σ (Option (LlrbReply K V))}
    (hb : ∀ c m t r t', Rep m t → llrbStep cmp t c.1 = some (r, t') → ((body c).eval m).1 = some r ∧ Rep ((body c).eval m).2 t')
    {m0 : σ} (h0 : Rep m0 .nil) {h : List (Event (LlrbOp K V Valid) (Option (LlrbReply K V)))} {x : LockState σ (LlrbOp K V Valid) (Option (LlrbReply K V))}
    (hx : Shows (LockMove body fun _ _ => False) ⟨m0, fun _ => .idle, none⟩ h x) : Linearizable (sortedSpec cmp) [] h := by
  have G : Guarded (fun _ => True) (· = ·) body (fun _ _ => False) fun m c a m' => (body c).eval m = (a, m') :=
    ⟨⟨fun _ => rfl, Eq.symm, Eq.trans⟩, fun c => by
      induction body c with
      | ret a => exact .ret a
      | act f k ih => exact .act (fun _ _ => trivial) (fun _ _ _ _ e => by rw [e]) (fun _ _ _ _ e => by rw [e]) fun s _ => ih s,
    nofun, fun c s s' _ _ e => by subst e; exact ⟨_, rfl, rfl, trivial⟩⟩
  refine (G.linearizable trivial hx).refine (fun m l => ∃ t, Rep m t ∧ OK cmp Valid t ∧ t.toList = l) ?_ ⟨.nil, h0, OK.nil, rfl⟩
  rintro m _ ⟨c, hc⟩ a m' ⟨t, h1, h2, rfl⟩ he
  cases c with
  | op o =>
    obtain ⟨r, t', k1, k2, k3, k4⟩ := step_ok H h2 o (hc o · rfl)
    obtain ⟨e1, e2⟩ := hb ⟨.op o, hc⟩ m t (.ans r) t' h1 (by rw [llrbStep, k1]; rfl)
    rw [he] at e1 e2
    exact ⟨_, ⟨r, e1, k3, rfl⟩, t', e2, k2, k4⟩
  | dump bad =>
    obtain ⟨e1, e2⟩ := hb ⟨.dump bad, hc⟩ m t (.dumped (dump bad t)) t h1 rfl
    rw [he] at e1 e2
    exact ⟨_, ⟨_, e1, dump_full bad t, rfl⟩, t, e2, h2, rfl⟩
  | reset =>
    obtain ⟨e1, e2⟩ := hb ⟨.reset, hc⟩ m t .unit .nil h1 rfl
    rw [he] at e1 e2
    exact ⟨_, ⟨e1, rfl⟩, .nil, e2, OK.nil, rfl⟩

/-- Read all, then write all. -/
def readWrite (f : Tree K V → Option (LlrbReply K V × Tree K V)) : Body (Tree K V) (Option (LlrbReply K V)) :=
  .act id fun t => .act (fun _ => ((f t).map Prod.snd).getD t) fun _ => .ret ((f t).map Prod.fst)

/-- Thread 1 calls first and waits while thread 0 puts another key. -/
example : ∃ x, Shows (LockMove (fun c : LlrbOp Nat Nat Sample.Valid => readWrite fun t => llrbStep Sample.cmp t c.1) fun _ _ => False)
    ⟨.nil, fun _ => .idle, none⟩
    [.call 1 ⟨.op .len, by rintro _ k ⟨⟩ ⟨⟩⟩, .call 0 ⟨.op (.put 5 50), by rintro _ k ⟨⟩ ⟨⟩; show 5 < 1000; omega⟩, .ret 0 (some (.ans (.done true, none))),
     .ret 1 (some (.ans (.count 1, none)))] x :=
  ⟨_, .seen (h := [_, _, _]) (.unseen (.unseen (.unseen (.seen (h := [_, _]) (.unseen (.unseen (.unseen (.unseen (.unseen
    (.seen (h := [_]) (.seen (h := []) (.refl _) (.call (t := 1) rfl)) (.call (t := 0) rfl))
    (.lock (t := 0) rfl rfl)) (.act (t := 0) rfl)) (.act (t := 0) rfl)) (.unlock (t := 0) rfl)) (.lock (t := 1) rfl rfl)) (.ret (t := 0) rfl))
    (.act (t := 1) rfl)) (.act (t := 1) rfl)) (.unlock (t := 1) rfl)) (.ret (t := 1) rfl)⟩

/-! ### C57, Reset -/

/-- As with a mutex, but some calls need only find it free, as one that takes no mutex does if it is not made during another. -/
inductive FreeMove {σ Op Ans : Type} (body : Op → Body σ Ans) (free : Op → Option ((σ → σ) × Ans)) : Moves (LockState σ Op Ans) Op Ans where
  | locked {x y : LockState σ Op Ans} {e : Option (Event Op Ans)} : LockMove body (fun _ _ => False) x e y → FreeMove body free x e y
  | free {x : LockState σ Op Ans} {t : Nat} {c : Op} {f : σ → σ} {a : Ans} : x.thr t = .waiting c → free c = some (f, a) → x.owner = none →
      FreeMove body free x none ⟨f x.mem, Function.update x.thr t (.leaving a), none⟩

/-- Reset needs no mutex. -/
def freeReset {σ : Type} (clear : σ → σ) (c : LlrbOp K V Valid) : Option ((σ → σ) × Option (LlrbReply K V)) :=
  match c.1 with
  | .reset => some (clear, some .unit)
  | _ => none

/-- C57: Reset takes no mutex; called while no other call is between Lock and Unlock it takes effect at once, like any other call. Missing: Reset
called while another call has the mutex, see `C57_reset_during_put_panics`. -/
theorem C57_reset_partial (H : Lawful cmp Valid) {σ : Type} (Rep : σ → Tree K V → Prop) {body : LlrbOp K V Valid → Body σ (Option (LlrbReply K V))} {clear : σ → σ}
    (hb : ∀ c m t r t', c.1 ≠ .reset → Rep m t → llrbStep cmp t c.1 = some (r, t') → ((body c).eval m).1 = some r ∧ Rep ((body c).eval m).2 t')
    (hr : ∀ c, c.1 = .reset → body c = .act clear fun _ => .ret (some .unit)) (hc : ∀ m, Rep (clear m) .nil)
    {m0 : σ} (h0 : Rep m0 .nil) {h : List (Event (LlrbOp K V Valid) (Option (LlrbReply K V)))} {x : LockState σ (LlrbOp K V Valid) (Option (LlrbReply K V))}
    (hx : Shows (FreeMove body (freeReset clear)) ⟨m0, fun _ => .idle, none⟩ h x) : Linearizable (sortedSpec cmp) [] h := by
  refine C46_llrb_linearizable H Rep (body := body) (fun c m t r t' hm hs => ?_) h0 (h := h) (x := x) ?_
  · by_cases he : c.1 = .reset
    · rw [he] at hs
      cases hs
      rw [hr c he]
      exact ⟨rfl, hc m⟩
    · exact hb c m t r t' he hm hs
  · induction hx with
    | refl => exact .refl _
    | seen _ hm ih =>
      cases hm with
      | locked hm => exact ih.seen hm
    | unseen _ hm ih =>
      cases hm with
      | locked hm => exact ih.unseen hm
      | @free y t c f a h1 h2 h3 =>
        have he : c.1 = .reset := by
          rw [freeReset] at h2
          split at h2
          · assumption
          · cases h2
        have h2 : (f, a) = (clear, some .unit) := by
          rw [freeReset, he] at h2
          exact (Option.some.inj h2).symm
        cases h2
        have := ((ih.unseen (.lock h1 h3)).unseen (.act (t := t) (f := clear) (k := fun _ => .ret (some .unit)) (by rw [hr c he]; exact Function.update_self ..))).unseen
          (.unlock (t := t) (a := some .unit) (Function.update_self ..))
        simpa using this

/-- The end of Put (llrb_tree.go:447-448): the root is read for postInsertAdjustLen, and once more for its colour. -/
def putRest (cmp : Compare K) (k : K) : Body (Tree K V) (Option (LlrbReply K V)) :=
  .act (fun t => (postInsertAdjustLen cmp k t).getD t) fun t => match postInsertAdjustLen cmp k t with
    | none => .ret none
    | some _ => .act blacken fun t => match t with
      | .nil => .ret none
      | .node .. => .ret (some (.ans (.done true, none)))

/-- Put, with each access to `tree.root` a step of its own (llrb_tree.go:436-454): the root is read, then set, then read again. That nodes are changed in place is not shown; only the root matters for Reset. `none`: nil is dereferenced. -/
def putSteps (cmp : Compare K) (k : K) (v : V) : Body (Tree K V) (Option (LlrbReply K V)) :=
  .act id fun t => match insert cmp k v t with
    | none => .ret none
    | some (.err e) => .ret (some (.ans (.done false, some e)))
    | some .dup => .ret (some (.ans (.done false, none)))
    | some (.ok t1) =>
        .act (fun _ => t1) fun _ => putRest cmp k

/-- Run alone, these steps are Put. -/
theorem putSteps_eval {k : K} {v : V} {t t' : Tree K V} {r : LlrbReply K V} (h : llrbStep cmp t (.op (.put k v)) = some (r, t')) :
    (putSteps cmp k v).eval t = (some r, t') := by
  simp only [llrbStep, Tree.step, put] at h
  simp only [putSteps, putRest, Body.eval, id]
  cases h1 : insert cmp k v t with
  | none => simp [h1] at h
  | some q =>
    rw [h1] at h
    cases q with
    | err e => cases h; rfl
    | dup => cases h; rfl
    | ok t1 =>
      cases h2 : postInsertAdjustLen cmp k t1 with
      | none => simp [h2] at h
      | some t2 =>
        simp [h2] at h
        obtain ⟨rfl, rfl⟩ := h
        cases t2 with
        | nil =>
          cases t1 with
          | nil => simp [postInsertAdjustLen] at h2
          | node =>
            rw [postInsertAdjustLen] at h2
            split at h2
            · cases h2
            · split at h2
              · simp [Option.bind_eq_some_iff] at h2
              · split at h2
                · simp [Option.bind_eq_some_iff] at h2
                · cases h2
        | node => simp [Body.eval, h2]

/-- All calls in steps. -/
def llrbBody (cmp : Compare K) (c : LlrbOp K V Valid) : Body (Tree K V) (Option (LlrbReply K V)) :=
  match c.1 with
  | .op (.put k v) => putSteps cmp k v
  | .reset => .act (fun _ => .nil) fun _ => .ret (some .unit)
  | c => readWrite fun t => llrbStep cmp t c

theorem llrbBody_eval {c : LlrbOp K V Valid} {t t' : Tree K V} {r : LlrbReply K V} (h : llrbStep cmp t c.1 = some (r, t')) :
    (llrbBody cmp c).eval t = (some r, t') := by
  obtain ⟨c, hc⟩ := c
  dsimp only at h
  cases c with
  | op o => cases o <;> first | exact putSteps_eval h | simp [llrbBody, readWrite, Body.eval, h]
  | dump bad => simp [llrbBody, readWrite, Body.eval, h]
  | reset => cases h; rfl

/-- C57, refuted for a Reset during another call: whatever a map holds, a Put of a new key during which Reset is called may panic. The steps `llrbBody` are
such that every call run alone does what it should. -/
theorem C57_reset_during_put_panics (H : Lawful cmp Valid) {t : Tree K V} (ht : Reach cmp Valid t) {k : K} (hk : Valid k) (hn : has cmp k t.toList = false) (v : V) :
    (∀ (c : LlrbOp K V Valid) t r t', llrbStep cmp t c.1 = some (r, t') → (llrbBody cmp c).eval t = (some r, t')) ∧
    ∃ x, Shows (LockMove (llrbBody cmp) fun _ m => m = .nil) ⟨t, fun _ => .idle, none⟩
      [.call 0 (⟨.op (.put k v), by rintro _ _ ⟨⟩ ⟨⟩; exact hk⟩ : LlrbOp K V Valid), .ret 0 none] x := by
  refine ⟨fun c t r t' => llrbBody_eval, ?_⟩
  obtain ⟨t', h1, -, h3⟩ := put_spec H (value := v) (ht.ok H) hk
  have : ∃ t1, insert cmp k v t = some (.ok t1) := by
    rw [put] at h1
    cases h2 : insert cmp k v t with
    | none => simp [h2] at h1
    | some q =>
      cases q with
      | err e => simp [h2] at h1
      | dup => simp [h2, hn] at h1
      | ok t1 => exact ⟨t1, rfl⟩
  obtain ⟨t1, h4⟩ := this
  have g1 := Shows.unseen (.seen (h := []) (.refl (R := LockMove (llrbBody cmp) fun _ m => m = .nil) ⟨t, fun _ => .idle, none⟩)
    (.call (t := 0) (c := (⟨.op (.put k v), by rintro _ _ ⟨⟩ ⟨⟩; exact hk⟩ : LlrbOp K V Valid)) rfl)) (.lock (t := 0) rfl rfl)
  have g2 := g1.unseen (.act (t := 0) (f := id) rfl)
  have g3 := g2.unseen (.act (t := 0) (f := fun _ => t1) (k := fun _ => putRest cmp k) (by dsimp only [id]; rw [Function.update_self, h4]))
  have g4 := g3.unseen (.noise (m := .nil) rfl)
  have g5 := g4.unseen (.act (t := 0) (f := fun t => (postInsertAdjustLen cmp k t).getD t) rfl)
  have g6 := g5.unseen (.unlock (t := 0) (a := none) rfl)
  exact ⟨_, g6.seen (.ret (t := 0) (a := none) rfl)⟩

/-- A map of two items. -/
example := C57_reset_during_put_panics Sample.lawful (t := .node 7 70 (.node 5 50 .nil .nil true 1) .nil false 2)
  ⟨[.op (.put 5 50), .op (.put 7 70)], _, by rintro c (_ | ⟨_, _ | ⟨_, ⟨⟩⟩⟩) k ⟨⟩ <;> simp [Sample.Valid], rfl⟩ (k := 6) (by simp [Sample.Valid]) (by decide) 60

/-- Thread 1 is about to take the mutex when thread 0 calls Reset. -/
example : ∃ x, Shows (FreeMove (llrbBody Sample.cmp) (freeReset fun _ => .nil)) ⟨.nil, fun _ => .idle, none⟩
    [.call 1 (⟨.op (.put 5 50), by rintro _ k ⟨⟩ ⟨⟩; show 5 < 1000; omega⟩ : LlrbOp Nat Nat Sample.Valid), .call 0 ⟨.reset, by rintro _ k ⟨⟩⟩, .ret 0 (some .unit)] x ∧
    Linearizable (sortedSpec Sample.cmp) [] [.call 1 (⟨.op (.put 5 50), by rintro _ k ⟨⟩ ⟨⟩; show 5 < 1000; omega⟩ : LlrbOp Nat Nat Sample.Valid),
      .call 0 ⟨.reset, by rintro _ k ⟨⟩⟩, .ret 0 (some .unit)] := by
  have h1 := Shows.seen (h := [_, _]) (.unseen (.seen (h := [_]) (.seen (h := []) (.refl (R := FreeMove (llrbBody Sample.cmp) (freeReset fun _ => .nil)) ⟨.nil, fun _ => .idle, none⟩)
    (.locked (.call (t := 1) (c := (⟨.op (.put 5 50), by rintro _ k ⟨⟩ ⟨⟩; show 5 < 1000; omega⟩ : LlrbOp Nat Nat Sample.Valid)) rfl)))
    (.locked (.call (t := 0) (c := ⟨.reset, by rintro _ k ⟨⟩⟩) rfl))) (.free (t := 0) rfl rfl rfl)) (.locked (.ret (t := 0) rfl))
  exact ⟨_, h1, C57_reset_partial Sample.lawful Eq (fun c m t r t' _ hm hs => by subst hm; rw [llrbBody_eval hs]; exact ⟨rfl, rfl⟩)
    (fun c hc => by rw [llrbBody, hc]) (fun _ => rfl) rfl h1⟩

end

/-! ### C58, FetchLocation -/

section
open BT

/-- FetchLocation (btree.go:820-826): it takes no mutex and reads the three fields of the root one after the other. -/
def locationSteps : Conc.Body Ref Ref := .act id fun a => .act id fun b => .act id fun c => .ret ⟨a.num, b.off, c.len⟩

/-- What a call that changes the map, holding the mutex, does meanwhile to these fields: it sets them to 0, one after the other (btree.go:2453-2455). -/
def clearing (m m' : Ref) : Prop := m' = { m with num := 0 } ∨ (m.num = 0 ∧ m' = { m with off := 0 }) ∨ m.num = 0 ∧ m.off = 0 ∧ m' = { m with len := 0 }

/-- C58, refuted for a FetchLocation during another call: the map is at `r`; while an item is put, say, FetchLocation returns what is neither `r` nor the
zeros that stand for a changed map. -/
theorem C58_location_during_change (r : Ref) (hn : r.num ≠ 0) (ho : r.off ≠ 0) :
    ∃ q, (∃ x, Shows (LockMove (fun _ : Unit => locationSteps) clearing) ⟨r, fun _ => .idle, none⟩ [.call 0 (), .ret 0 q] x ∧ x.mem = .zero) ∧ q ≠ r ∧ q ≠ .zero := by
  obtain ⟨n, o, l⟩ := r
  refine ⟨⟨n, 0, 0⟩, ⟨_, .seen (h := [_]) (.unseen (.unseen (.unseen (.unseen (.unseen (.unseen (.unseen (.unseen (.seen (h := []) (.refl _)
    (.call (t := 0) rfl)) (.lock (t := 0) rfl rfl)) (.act (t := 0) rfl)) (.noise (.inl rfl))) (.noise (.inr (.inl ⟨rfl, rfl⟩)))) (.noise (.inr (.inr ⟨rfl, rfl, rfl⟩))))
    (.act (t := 0) rfl)) (.act (t := 0) rfl)) (.unlock (t := 0) rfl)) (.ret (t := 0) rfl), rfl⟩, ?_, ?_⟩
  · simp only [ne_eq, Ref.mk.injEq, true_and, not_and]
    exact fun h => absurd h.symm ho
  · simp only [Ref.zero, ne_eq, Ref.mk.injEq, not_and]
    exact fun h => absurd h hn

/-- Run alone it returns the location. -/
theorem locationSteps_eval (r : Ref) : locationSteps.eval r = (r, r) := rfl

example := C58_location_during_change ⟨3, 100, 17⟩ (by simp) (by simp)

variable {K V : Type} {S : Setup K V} {fuel : Nat} {cs : Calls K V} {t : TreeId} {v : Env} {r : Ref}

/-- C58: called between other calls, FetchLocation returns what Flush returned if the map has been flushed, and zeros if an operation has changed it.
(That calls which do not change the map leave it be is C31.) Missing: FetchLocation during other calls. -/
theorem C58_location_partial {p : Bool} (h : Hist S fuel (cs ++ [(.flush t p, v)])) (hok : (S.run fuel (S.now fuel cs) (.flush t p) v).1 = .ok (.loc r)) (v' : Env) :
    (S.run fuel (S.now fuel (cs ++ [(.flush t p, v)])) (.location t) v').1 = .ok (.loc r) := by
  obtain ⟨h0, s, s', m, h1, h2, h3, h4, h5, h6, h7⟩ := h.call rfl
  obtain ⟨-, -, new, ⟨r', k1, k2, k3, k4, k5, k6⟩ | ⟨⟨k1, -⟩ | ⟨k1, -⟩, -⟩⟩ := h5
  · have e : r' = r := by
      have := k1.symm.trans hok
      cases this
      rfl
    subst e
    have := h6.loc (v := v') (t := t) h.enough h7 (by rw [k6]; exact Api.set_same _ _ _)
    exact this
  · cases k1.symm.trans hok
  · cases k1.symm.trans hok

/-- See `C58_location_partial`. -/
theorem C58_location_changed_partial {op : Spec.Op K V} {l : List (K × V)} (h : Hist S fuel (cs ++ [(.op t op, v)])) (hl : S.Has fuel (S.now fuel cs) t l)
    (hv : v.Works) (hc : (Spec.stepE (S.cfg t).cmp l op).2 ≠ l) (v' : Env) :
    (S.run fuel (S.now fuel (cs ++ [(.op t op, v)])) (.location t) v').1 = .ok (.loc .zero) := by
  obtain ⟨h0, s, s', m, h1, h2, h3, h4, h5, h6, h7⟩ := h.call rfl
  have e := h4.unique hl
  subst e
  obtain ⟨-, ⟨-, ⟨k1, -⟩ | ⟨-, m', k1, k2⟩⟩ | ⟨e, -, k1, -⟩ | ⟨e, k1, -⟩⟩ := h5
  · exact absurd k1 hc
  · have := h6.loc (v := v') (t := t) h.enough h7 (by rw [k2]; exact Api.set_same _ _ _)
    rw [k1.saved] at this
    exact this
  · exact absurd k1 hv.no.1.not
  · exact absurd k1 hv.no.1.not

/-- A map of twelve items or more. -/
example : (sampleSetup.run 60 (sampleSetup.now 60 (storeHist ++ [(.op 0 (.deleteByIndex 4), calmEnv)])) (.location 0) calmEnv).1 = .ok (.loc .zero) := by
  obtain ⟨-, s, s', m, h1, h2, h3, h4, -⟩ := storeHist_open.call rfl
  have h5 : 12 ≤ m.items.length := C53_levels storeHist_open storeHist_deep h4
  refine C58_location_changed_partial (storeHist_then (by simp only [List.mem_cons, List.not_mem_nil, or_false, forall_eq]; exact ⟨rfl, .of_noFault calmEnv_works.no⟩) (by simp)) h4 calmEnv_works (fun h => ?_) calmEnv
  have := congrArg List.length h
  simp [Spec.stepE, Spec.step, Spec.Op.key?, Spec.at?] at this
  split at this <;> simp [List.length_eraseIdx] at this <;> omega

/-- The map is flushed anew after Touch. -/
example {r : Ref} (hr : (sampleSetup.run 60 (sampleSetup.now 60 (storeHist ++ [(.touch 0, calmEnv)])) (.flush 0 false) (putEnv 11)).1 = .ok (.loc r)) :=
  C58_location_partial (by rw [List.append_assoc]; exact storeHist_then (by simp only [List.cons_append, List.nil_append, List.mem_cons, List.not_mem_nil, or_false, forall_eq_or_imp, forall_eq]; exact ⟨⟨rfl, trivial⟩, rfl, trivial⟩) (by simp)) hr calmEnv

end

/-! ### C46, B+Trees -/

section
open Spec (Op stepE)
open Api (OwnCall Mild Wanted)
open BT

variable {K V : Type} {S : Setup K V} {fuel : Nat} {t : TreeId}

/-- The calls that take the mutex of map `t`, with the behaviour of the callbacks meanwhile: all that can be called on an open map but Discard,
FetchLocation (which takes no mutex) and Dump (which reads the cache's fields without the cache's mutex), and what the drainer does once it has the mutex. -/
def TreeOp (S : Setup K V) (t : TreeId) (ok : Api.Call K V → Env → Prop) :=
  { x : Api.Call K V × Env // OwnCall (S.api t) t x.1 ∧ ok x.1 x.2 ∧ (∀ a b, x.1 ≠ .limits a b) ∧ (∀ t', x.1 ≠ .location t') ∧ ∀ t' cb, x.1 ≠ .dump t' cb }

/-- What goes on without that mutex, on the cache's own: UpdateLimits, and the drainer looking for a node to evict. -/
def cacheNoise (w w' : World K V) : Prop := (∃ a b, w' = (updateLimits a b w).2) ∨ w' = (drainerLook w).2

/-- The body is the call, taken apart into single accesses to the memory, the lists of the cache and the callbacks. -/
def TakesApart (S : Setup K V) (fuel : Nat) {ok : Api.Call K V → Env → Prop} (body : TreeOp S t ok → Conc.Body (World K V) (Out (Api.Reply K V))) : Prop :=
  ∀ x, ∃ b, Split (exec S.size S.cfg fuel x.1.1) b ∧ body x = .act (fun w => w.using x.1.2) fun _ => b

/-- Every call can be taken apart. -/
theorem takesApart (S : Setup K V) (fuel : Nat) (t : TreeId) (ok : Api.Call K V → Env → Prop) : ∃ body : TreeOp S t ok → _, TakesApart S fuel body := by
  have : ∀ x : TreeOp S t ok, ∃ b, ∃ b', Split (exec S.size S.cfg fuel x.1.1) b' ∧ b = Conc.Body.act (fun w => w.using x.1.2) fun _ => b' := fun x => by
    obtain ⟨b, hb⟩ := Splits.exec S.size S.cfg fuel x.1.1 x.2.2.2.1 (by intro h; have := x.2.1; rw [h] at this; exact this) x.2.2.2.2.2
    exact ⟨_, b, hb, rfl⟩
  exact ⟨fun x => (this x).choose, fun x => (this x).choose_spec⟩

theorem cacheNoise.same {w w' : World K V} (h : cacheNoise w w') : SameBut w w' := by
  rcases h with ⟨a, b, rfl⟩ | rfl
  · exact ⟨_, rfl⟩
  · unfold drainerLook
    dsimp only
    split
    · exact ⟨_, rfl⟩
    · split
      · exact ⟨_, rfl⟩
      · exact .refl w

/-- As if the calls were run one at a time. -/
theorem tree_guarded {ok : Api.Call K V → Env → Prop} {body : TreeOp S t ok → Conc.Body (World K V) (Out (Api.Reply K V))} (hb : TakesApart S fuel body) :
    Guarded (fun _ => True) SameBut body cacheNoise fun w x a w' => S.run fuel w x.1.1 x.1.2 = (a, w') where
  equiv := SameBut.equiv
  blind x := by
    obtain ⟨b, h1, h2⟩ := hb x
    rw [h2]
    exact .act (fun _ _ => trivial) (fun _ _ _ _ ⟨c, e⟩ => ⟨c, by subst e; rfl⟩) (fun _ _ _ _ _ => rfl) fun _ _ => h1.spec.1
  quiet _ _ h _ := ⟨trivial, h.same⟩
  does x w w' _ _ e := by
    obtain ⟨b, h1, h2⟩ := hb x
    rw [h2]
    have e' : SameBut (w.using x.1.2) (w'.using x.1.2) := by obtain ⟨c, rfl⟩ := e; exact ⟨c, rfl⟩
    have := h1.spec.1.eval trivial trivial e'
    have h3 := h1.spec.2 (w'.using x.1.2)
    refine ⟨_, ?_, this.2, trivial⟩
    show exec S.size S.cfg fuel x.1.1 (w'.using x.1.2) = _
    rw [← h3]
    exact Prod.ext this.1.symm rfl

/-- What the specification of the API allows. -/
def apiSpec (S : Setup K V) (t : TreeId) {ok : Api.Call K V → Env → Prop} (s : Api.St K V) (x : TreeOp S t ok) (a : Out (Api.Reply K V)) (s' : Api.St K V) : Prop :=
  ∃ o : Api.Obs K V, o.out = a ∧ Api.Step S.api x.1.2.faults s x.1.1 o s'

/-- **C46.** Calls on one B+Tree from any number of threads, and evictions by the drainer, interleaved access by access in any way the map's mutex
allows, with UpdateLimits called and the drainer looking into the cache at any moment: they answer as if they were made one at a time, in an order
consistent with real time. Before that, any history, of any number of maps. What the callbacks may do is anything, but for deletions and Prune, during
which they do not fail, and no Prune of the map has failed. This one is about a map whose cache is not used through other maps meanwhile, and asks nothing about where nodes are stored;
`C46_btrees_calls_linearizable` is about any number of maps in use. -/
theorem C46_btree_calls_linearizable {body : TreeOp S t (fun c v => Mild v.faults c) → Conc.Body (World K V) (Out (Api.Reply K V))} (hb : TakesApart S fuel body)
    {cs : Calls K V} {s : Api.St K V} {m : Api.Map K V} (hs : At S fuel cs s) (hs1 : s.sound = true) (hs2 : s.maps t = some m) (hT : S.Clear fuel cs t)
    {h : List (Event (TreeOp S t fun c v => Mild v.faults c) (Out (Api.Reply K V)))} {x : LockState (World K V) (TreeOp S t fun c v => Mild v.faults c) (Out (Api.Reply K V))}
    (hf : ∀ t, (S.cfg t).max + (cs.length + calls h) + 2 < fuel)
    (hx : Shows (LockMove body cacheNoise) ⟨S.now fuel cs, fun _ => .idle, none⟩ h x) : Linearizable (apiSpec S t) s h := by
  refine ((tree_guarded hb).linearizable trivial hx).refineN (fun n w s => Inv S.cfg (cs.length + n) w s ∧ s.sound = true ∧ ∃ m, s.maps t = some m ∧ m.fails = 0) (calls h) ?_ ⟨hs.inv, hs1, m, hs2, hs.clear hT hs2⟩ (Nat.le_refl _)
  rintro n w s x a w' hn ⟨h1, h2, m, h3, hT⟩ he
  have hp := x.2.1.pre (cfg := S.api) (F := x.1.2.faults) h2 h3 (fun _ => hT)
  obtain ⟨s', k1, k2⟩ := h1.step (fuel := fuel) (v := x.1.2) (c := x.1.1) (fun t => by have := hf t; omega) hp
  have k3 := (k1.mild h2 x.2.2.1).1
  obtain ⟨-, m', k4, -⟩ := k1.keeps hp h2 (.inl k3) x.2.1.keeps h3
  refine ⟨s', ⟨_, congrArg Prod.fst he, k1⟩, ?_, k3, m', k4, k1.keep_fails h2 x.2.2.1 h3 k4 hT⟩
  rw [he] at k2
  exact k2

/-- What a sorted list answers; the calls that are not operations of a sorted map leave it alone. -/
def sortedTreeSpec (S : Setup K V) (t : TreeId) {ok : Api.Call K V → Env → Prop} (l : List (K × V)) (x : TreeOp S t ok) (a : Out (Api.Reply K V)) (l' : List (K × V)) : Prop :=
  match x.1.1 with
  | .op _ op => Wanted (S.cfg t).cmp op a (stepE (S.cfg t).cmp l op).1 ∧ l' = (stepE (S.cfg t).cmp l op).2
  | _ => l' = l

/-- **C46.** The same, seen from the items: the answers are those of a sorted list. Here no callback but PutNode fails. -/
theorem C46_btree_linearizable {body : TreeOp S t (fun _ v => v.Works) → Conc.Body (World K V) (Out (Api.Reply K V))} (hb : TakesApart S fuel body)
    {cs : Calls K V} {l : List (K × V)} (ho : Opened S fuel cs t) (hT : S.Clear fuel cs t) (hl : S.Has fuel (S.now fuel cs) t l)
    {h : List (Event (TreeOp S t fun _ v => v.Works) (Out (Api.Reply K V)))} {x : LockState (World K V) (TreeOp S t fun _ v => v.Works) (Out (Api.Reply K V))}
    (hf : ∀ t, (S.cfg t).max + (cs.length + calls h) + 2 < fuel)
    (hx : Shows (LockMove body cacheNoise) ⟨S.now fuel cs, fun _ => .idle, none⟩ h x) : Linearizable (sortedTreeSpec S t) l h := by
  obtain ⟨h0, s, s', m, h1, h2, h3, h4, -⟩ := Hist.call (cs := cs) ho rfl
  obtain rfl := h4.unique hl
  refine ((tree_guarded hb).linearizable trivial hx).refineN (fun n w l => ∃ s m, Inv S.cfg (cs.length + n) w s ∧ s.sound = true ∧ s.maps t = some m ∧ m.fails = 0 ∧ m.items = l) (calls h) ?_
    ⟨s, m, h1.inv, h2, h3, h1.clear hT h3, rfl⟩ (Nat.le_refl _)
  clear hx hl h4 h1 h2 h3 hT
  rintro n w _ x a w' hn ⟨s, m, h1, h2, h3, hT, rfl⟩ he
  have hp := x.2.1.pre (cfg := S.api) (F := x.1.2.faults) h2 h3 (fun _ => hT)
  obtain ⟨s', k1, k2⟩ := h1.step (fuel := fuel) (v := x.1.2) (c := x.1.1) (fun t => by have := hf t; omega) hp
  obtain ⟨k3, m', k4, -, k5⟩ := k1.keeps hp h2 (.inr x.2.2.1.no) x.2.1.keeps h3
  rw [he] at k2
  refine ⟨m'.items, ?_, s', m', k2, k3, k4, k1.keep_fails h2 (.of_noFault x.2.2.1.no) h3 k4 hT, rfl⟩
  have ha : (S.see fuel w x.1.1 x.1.2).out = a := congrArg Prod.fst he
  clear he
  obtain ⟨⟨c, v⟩, hx⟩ := x
  dsimp only [sortedTreeSpec] at *
  cases c with
  | op t' op =>
    have ht : t' = t := by
      have := hx.1
      cases op <;> first | exact this | exact this.1
    subst ht
    have k6 := k1.on h2 rfl h3
    dsimp only
    obtain ⟨-, ⟨w1, ⟨w3, rfl⟩ | ⟨-, m2, w3, rfl⟩⟩ | ⟨e, -, w2, -⟩ | ⟨e, w2, -⟩⟩ := k6
    · rw [h3, Option.some.injEq] at k4
      subst k4
      exact ⟨ha ▸ w1, w3.symm⟩
    · rw [Api.set_same, Option.some.injEq] at k4
      subst k4
      exact ⟨ha ▸ w1, w3.items⟩
    · exact absurd w2 hx.2.1.no.1.not
    · exact absurd w2 hx.2.1.no.1.not
  | _ => exact k5.resolve_right (by rintro ⟨op, e, -⟩; cases e)

/-- A thread that holds the mutex can go on to Unlock. -/
theorem goes_on {σ Op Ans : Type} {body : Op → Conc.Body σ Ans} {noise : σ → σ → Prop} {u : Nat} : ∀ (b : Conc.Body σ Ans) {x : LockState σ Op Ans}, x.thr u = .inside b →
    ∃ y, Shows (LockMove body noise) x [] y ∧ y.mem = (b.eval x.mem).2 ∧ y.thr = Function.update x.thr u (.leaving (b.eval x.mem).1) ∧ y.owner = none
  | .ret _, _, h => ⟨_, .unseen (.refl _) (.unlock h), rfl, rfl, rfl⟩
  | .act f k, x, h => by
      obtain ⟨y, h1, h2, h3, h4⟩ := goes_on (k x.mem) (x := ⟨f x.mem, Function.update x.thr u (.inside (k x.mem)), x.owner⟩) (Function.update_self ..)
      exact ⟨y, Shows.trans (h := []) (.unseen (.refl _) (.act h)) h1, h2, by rw [h3]; simp [Conc.Body.eval], h4⟩

theorem goes_on' {σ Op Ans : Type} {body : Op → Conc.Body σ Ans} {noise : σ → σ → Prop} {u : Nat} {b : Conc.Body σ Ans} {x y : LockState σ Op Ans} {h : List (Event Op Ans)}
    (hy : Shows (LockMove body noise) y h x) (hb : x.thr u = .inside b) :
    ∃ z, Shows (LockMove body noise) y h z ∧ z.thr = Function.update x.thr u (.leaving (b.eval x.mem).1) ∧ z.owner = none := by
  obtain ⟨z, h1, -, h2, h3⟩ := goes_on b hb
  exact ⟨z, by simpa using hy.trans h1, h2, h3⟩

/-- Thread 1 calls Len and waits; thread 0 deletes an item meanwhile, while the limits of the cache are changed. -/
example {body : TreeOp sampleSetup 0 (fun _ v => v.Works) → Conc.Body (World Nat Nat) (Out (Api.Reply Nat Nat))} :
    ∃ a b x, Shows (LockMove body cacheNoise) ⟨sampleSetup.now 60 treeHist, fun _ => .idle, none⟩
      [.call 1 ⟨(.op 0 .len, sampleEnv), rfl, sampleEnv_works, nofun, nofun, nofun⟩, .call 0 ⟨(.op 0 (.deleteByKey 120), sampleEnv), rfl, sampleEnv_works, nofun, nofun, nofun⟩, .ret 0 a, .ret 1 b] x := by
  have h1 := Shows.unseen (.unseen (.seen (h := [_]) (.seen (h := []) (.refl (R := LockMove body cacheNoise) ⟨sampleSetup.now 60 treeHist, fun _ => .idle, none⟩)
    (.call (t := 1) (c := ⟨(.op 0 .len, sampleEnv), rfl, sampleEnv_works, nofun, nofun, nofun⟩) rfl))
    (.call (t := 0) (c := ⟨(.op 0 (.deleteByKey 120), sampleEnv), rfl, sampleEnv_works, nofun, nofun, nofun⟩) rfl)) (.lock (t := 0) rfl rfl)) (.noise (.inl ⟨1, 2, rfl⟩))
  obtain ⟨y, h2, h3, h4⟩ := goes_on' (u := 0) h1 rfl
  have h5 := Shows.unseen (h2.seen (.ret (t := 0) (by rw [h3]; exact Function.update_self ..))) (.lock (t := 1) (by rw [h3]; rfl) h4)
  obtain ⟨z, h6, h7, h8⟩ := goes_on' (u := 1) h5 rfl
  exact ⟨_, _, _, h6.seen (.ret (t := 1) (by rw [h7]; exact Function.update_self ..))⟩

example {body : TreeOp sampleSetup 0 (fun _ v => v.Works) → Conc.Body (World Nat Nat) (Out (Api.Reply Nat Nat))} (hb : TakesApart sampleSetup 60 body) {l : List (Nat × Nat)}
    (hl : sampleSetup.Has 60 (sampleSetup.now 60 treeHist) 0 l) {h : List (Event (TreeOp sampleSetup 0 fun _ v => v.Works) (Out (Api.Reply Nat Nat)))}
    {x : LockState (World Nat Nat) (TreeOp sampleSetup 0 fun _ v => v.Works) (Out (Api.Reply Nat Nat))} (hf : calls h ≤ 10) :=
  C46_btree_linearizable (h := h) (x := x) hb (treeHist_then (ds := [(.location 0, calmEnv)]) (by simp [OwnCall, Mild]) (by simp)) treeHist_clear hl
    (fun t => by
      have h1 : treeHist.length ≤ 43 := by simp [treeHist, treeCalls]
      have h2 : (sampleSetup.cfg t).max = 4 := rfl
      omega)

end

end SM.Props

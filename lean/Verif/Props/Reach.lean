import Verif.Props.Same

/-!
Histories of the B+Tree API, run in the model: what is seen of a call after a history, what the contents of a map are (as its own
read operations show them), and the bridge from these to the specification.
-/

namespace SM.BT

open Spec (Op Ans AgreesE Refused stepE has at?)
open Api (Step Steps Pre Legal Intact Hurt Sane Wanted)

variable {K V : Type}

/-- What the caller fixes once and for all: how long the encoding of a node is, and the parameters of each map. -/
structure Setup (K V : Type) where
  size : DiskNode K V → Nat
  cfg : TreeId → Par K
  named : ∀ t, (cfg t).τ = t

/-- The parameters, as the specification knows them. -/
abbrev Setup.api (S : Setup K V) : TreeId → Api.Cfg K := fun t => (S.cfg t).cfg

/-- The calls of a history, each with the behaviour of the callbacks meanwhile. -/
abbrev Calls (K V : Type) := List (Api.Call K V × Env)

/-- The result of a call and the state after it. -/
def Setup.run (S : Setup K V) (fuel : Nat) (w : World K V) (c : Api.Call K V) (v : Env) : Out (Api.Reply K V) × World K V :=
  exec S.size S.cfg fuel c (w.using v)

/-- The state after calls. -/
def Setup.after (S : Setup K V) (fuel : Nat) : World K V → Calls K V → World K V
  | w, [] => w
  | w, (c, v) :: cs => S.after fuel (S.run fuel w c v).2 cs

/-- What is seen of calls. -/
def Setup.trace (S : Setup K V) (fuel : Nat) (w : World K V) (cs : Calls K V) : List (Api.Call K V × Api.Faults × Api.Obs K V) :=
  BT.trace S.size S.cfg fuel w cs

/-- What is seen of one call. -/
def Setup.see (S : Setup K V) (fuel : Nat) (w : World K V) (c : Api.Call K V) (v : Env) : Api.Obs K V :=
  obs (w.using v) (S.run fuel w c v)

/-- No callback that reads fails. -/
def Env.CanRead (v : Env) : Prop := (∀ n, v.getFails n = false) ∧ ∀ n, v.unpackFails n = false

/-- Neither these nor DiscardNode. -/
def Env.Works (v : Env) : Prop := v.CanRead ∧ ∀ n, v.discardFails n = false

/-- The items of a map are the list, as GetByIndex and Len show them. -/
def Setup.Has (S : Setup K V) (fuel : Nat) (w : World K V) (t : TreeId) (l : List (K × V)) : Prop :=
  ∀ v : Env, v.CanRead →
    (S.run fuel w (.op t .len) v).1 = .ok (.ans (.count l.length, none)) ∧
    ∀ i : Int, (S.run fuel w (.op t (.getByIndex i)) v).1 = .ok (.ans (.item (at? i l), none))

/-- A history: calls from the very beginning, each of which may be made, and no deletion has failed since the last restart. -/
structure Hist (S : Setup K V) (fuel : Nat) (cs : Calls K V) : Prop where
  enough : ∀ t, (S.cfg t).max + cs.length + 2 < fuel
  legal : Legal S.api Api.init (S.trace fuel start cs)
  intact : Intact (S.trace fuel start cs)

/-- No Prune of map `t` has failed since the map was opened. -/
def Setup.Clear (S : Setup K V) (fuel : Nat) (cs : Calls K V) (t : TreeId) : Prop := Api.Clear t (S.trace fuel start cs)

/-- The state after a history. -/
abbrev Setup.now (S : Setup K V) (fuel : Nat) (cs : Calls K V) : World K V := S.after fuel start cs

section
variable {S : Setup K V} {fuel : Nat} {cs ds : Calls K V} {w : World K V} {s s' : Api.St K V} {n : Nat} {t : TreeId} {m : Api.Map K V}
  {v : Env} {c : Api.Call K V}

theorem Env.CanRead.no (h : v.CanRead) : v.faults.NoRead :=
  ⟨fun ⟨n, hn⟩ => (by rw [h.1 n] at hn; cases hn), fun ⟨n, hn⟩ => (by rw [h.2 n] at hn; cases hn)⟩

theorem Env.Works.no (h : v.Works) : v.faults.NoFault :=
  ⟨h.1.no, fun ⟨n, hn⟩ => (by rw [h.2 n] at hn; cases hn)⟩

theorem trace_cons : S.trace fuel w ((c, v) :: cs) = (c, v.faults, S.see fuel w c v) :: S.trace fuel (S.run fuel w c v).2 cs := rfl

theorem trace_append : ∀ {cs : Calls K V} {w : World K V}, S.trace fuel w (cs ++ ds) = S.trace fuel w cs ++ S.trace fuel (S.after fuel w cs) ds
  | [], _ => rfl
  | (c, v) :: cs, w => by
      rw [List.cons_append, trace_cons, trace_cons, trace_append, List.cons_append]
      rfl

theorem after_append : ∀ {cs : Calls K V} {w : World K V}, S.after fuel w (cs ++ ds) = S.after fuel (S.after fuel w cs) ds
  | [], _ => rfl
  | (_, _) :: cs, _ => after_append (cs := cs)

theorem after_one : S.after fuel w (cs ++ [(c, v)]) = (S.run fuel (S.after fuel w cs) c v).2 := by
  rw [after_append]
  rfl

theorem trace_length : ∀ {cs : Calls K V} {w : World K V}, (S.trace fuel w cs).length = cs.length
  | [], _ => rfl
  | (c, v) :: cs, w => by rw [trace_cons, List.length_cons, List.length_cons, trace_length]

theorem trace_calls : ∀ {cs : Calls K V} {w : World K V}, (S.trace fuel w cs).map Prod.fst = cs.map Prod.fst
  | [], _ => rfl
  | (c, v) :: cs, w => by rw [trace_cons, List.map_cons, List.map_cons, trace_calls]

theorem mem_trace {x : Api.Call K V × Api.Faults × Api.Obs K V} : ∀ {cs : Calls K V} {w : World K V}, x ∈ S.trace fuel w cs →
    ∃ a c v b, cs = a ++ (c, v) :: b ∧ x = (c, v.faults, S.see fuel (S.after fuel w a) c v)
  | [], _, h => by cases h
  | (c, v) :: cs, w, h => by
      rw [trace_cons, List.mem_cons] at h
      rcases h with rfl | h
      · exact ⟨[], c, v, cs, rfl, rfl⟩
      · obtain ⟨a, c', v', b, rfl, rfl⟩ := mem_trace h
        exact ⟨(c, v) :: a, c', v', b, rfl, rfl⟩

/-- One call. -/
theorem Inv.step (hi : Inv S.cfg n w s) (hf : ∀ t, (S.cfg t).max + n + 2 < fuel) (hp : Pre S.api v.faults s c) :
    ∃ s', Step S.api v.faults s c (S.see fuel w c v) s' ∧ Inv S.cfg (n + 1) (S.run fuel w c v).2 s' :=
  exec_step S.size S.named (hi.using v) hf c hp

/-- Many. -/
theorem Inv.steps : ∀ {cs : Calls K V} {n : Nat} {w : World K V} {s : Api.St K V}, Inv S.cfg n w s → (∀ t, (S.cfg t).max + (n + cs.length) + 2 < fuel) →
    Legal S.api s (S.trace fuel w cs) → ∃ s', Steps S.api s (S.trace fuel w cs) s' ∧ Inv S.cfg (n + cs.length) (S.after fuel w cs) s'
  | [], n, w, s, hi, _, _ => ⟨s, rfl, hi⟩
  | (c, v) :: cs, n, w, s, hi, hf, hl => by
      rw [trace_cons] at hl ⊢
      simp only [List.length_cons] at hf ⊢
      obtain ⟨s1, h1, h2⟩ := hi.step (fuel := fuel) (v := v) (c := c) (fun t => by have := hf t; omega) hl.1
      obtain ⟨s2, h3, h4⟩ := Inv.steps (cs := cs) (n := n + 1) h2 (fun t => by have := hf t; omega) (hl.2 s1 h1)
      exact ⟨s2, ⟨s1, hl.1, h1, h3⟩, by rw [show n + (cs.length + 1) = n + 1 + cs.length by omega]; exact h4⟩

/-- The state of the specification after a history. -/
structure At (S : Setup K V) (fuel : Nat) (cs : Calls K V) (s : Api.St K V) : Prop where
  steps : Steps S.api Api.init (S.trace fuel start cs) s
  inv : Inv S.cfg cs.length (S.now fuel cs) s

/-- The calls may be made. -/
theorem At.legal (h : At S fuel cs s) : Legal S.api Api.init (S.trace fuel start cs) := h.steps.legal (.refl _)

theorem At.clear (h : At S fuel cs s) (hc : S.Clear fuel cs t) (hm : s.maps t = some m) : m.fails = 0 := h.steps.clear rfl hc hm

theorem At.sane (h : At S fuel cs s) : Sane s := h.steps.sane .init

theorem exists_at (hf : ∀ t, (S.cfg t).max + cs.length + 2 < fuel) (hl : Legal S.api Api.init (S.trace fuel start cs)) : ∃ s, At S fuel cs s := by
  obtain ⟨s, h1, h2⟩ := (Inv.start (cfg := S.cfg) (n := 0)).steps (S := S) (cs := cs) (fuel := fuel) (fun t => by have := hf t; omega) hl
  exact ⟨s, h1, by simpa using h2⟩

theorem Hist.at (h : Hist S fuel cs) : ∃ s, At S fuel cs s ∧ s.sound = true := by
  obtain ⟨s, hs⟩ := exists_at h.enough h.legal
  exact ⟨s, hs, hs.steps.intact rfl h.intact⟩

/-- The state after more calls. -/
theorem At.more (h : At S fuel cs s) (hf : ∀ t, (S.cfg t).max + (cs ++ ds).length + 2 < fuel) (hl : Legal S.api Api.init (S.trace fuel start (cs ++ ds))) :
    ∃ s', Steps S.api s (S.trace fuel (S.now fuel cs) ds) s' ∧ At S fuel (cs ++ ds) s' := by
  rw [trace_append, Legal.append] at hl
  obtain ⟨s', h1, h2⟩ := h.inv.steps (cs := ds) (fun t => by have := hf t; rw [List.length_append] at this; omega) (hl.2 s h.steps)
  refine ⟨s', h1, ?_, ?_⟩
  · rw [trace_append]; exact Steps.append.2 ⟨s, h.steps, h1⟩
  · rw [Setup.now, after_append, List.length_append]; exact h2

/-- The state after one more call. -/
theorem At.one (h : At S fuel cs s) (hf : ∀ t, (S.cfg t).max + (cs ++ [(c, v)]).length + 2 < fuel) (hp : Pre S.api v.faults s c) :
    ∃ s', Step S.api v.faults s c (S.see fuel (S.now fuel cs) c v) s' ∧ At S fuel (cs ++ [(c, v)]) s' := by
  obtain ⟨s', h1, h2⟩ := h.inv.step (fuel := fuel) (v := v) (c := c) (fun t => by have := hf t; simp at this; omega) hp
  refine ⟨s', h1, ?_, ?_⟩
  · rw [trace_append]; exact Steps.append.2 ⟨s, h.steps, s', hp, h1, rfl⟩
  · rw [Setup.now, after_one, List.length_append]; exact h2

theorem legal_one (hl : Legal S.api Api.init (S.trace fuel start (cs ++ [(c, v)]))) (h : At S fuel cs s) : Pre S.api v.faults s c := by
  rw [trace_append, Legal.append] at hl
  exact (hl.2 s h.steps).1

theorem legal_init (hl : Legal S.api Api.init (S.trace fuel start (cs ++ ds))) : Legal S.api Api.init (S.trace fuel start cs) := by
  rw [trace_append, Legal.append] at hl
  exact hl.1

/-- A history and its last call. -/
theorem Hist.last (h : Hist S fuel (cs ++ [(c, v)])) (hc : c ≠ .restart) : Hist S fuel cs ∧ ∃ s s', At S fuel cs s ∧ s.sound = true ∧ Pre S.api v.faults s c ∧
    Step S.api v.faults s c (S.see fuel (S.now fuel cs) c v) s' ∧ At S fuel (cs ++ [(c, v)]) s' ∧ s'.sound = true := by
  have hi := h.intact
  rw [trace_append] at hi
  have h0 : Hist S fuel cs := ⟨fun t => by have := h.enough t; rw [List.length_append] at this; omega, legal_init h.legal, Intact.init hi hc⟩
  obtain ⟨s, h1, h2⟩ := h0.at
  have hp := legal_one h.legal h1
  obtain ⟨s', h3, h4⟩ := h1.one h.enough hp
  exact ⟨h0, s, s', h1, h2, hp, h3, h4, h4.steps.intact rfl h.intact⟩

theorem answer_ok {cmp : Compare K} {op : Op K V} {out : Out (Api.Reply K V)} {a : Ans K V} (h : Wanted cmp op out (some a)) : out = .ok (.ans (a, none)) := by
  rcases h with ⟨⟨b, e⟩, rfl, h⟩ | ⟨e, -, h, -⟩
  · cases e with
    | none => rw [show b = a from h]
    | some e => exact h.elim
  · cases h

/-- An operation in a sound state. -/
theorem Inv.op (hi : Inv S.cfg n w s) (hf : ∀ t, (S.cfg t).max + n + 2 < fuel) (hs : s.sound = true) (hm : s.maps t = some m) (hv : v.CanRead) {op : Op K V}
    (hp : ∀ k x, op = .put k x → (S.cfg t).Valid k ∨ m.items ≠ []) :
    Wanted (S.cfg t).cmp op (S.run fuel w (.op t op) v).1 (stepE (S.cfg t).cmp m.items op).1 := by
  have hpre : Pre S.api v.faults s (.op t op) := by
    cases op with
    | put k x => simp only [Pre, hs, if_true]; exact ⟨m, hm, hp k x rfl⟩
    | _ => simp only [Pre, hs, if_true]; exact ⟨m, hm⟩
  obtain ⟨s', h1, -⟩ := hi.step (v := v) hf hpre
  have h2 := h1.on hs rfl hm
  obtain ⟨-, ⟨k1, -⟩ | ⟨e, -, k1, -⟩ | ⟨e, k1, -⟩⟩ := h2
  · exact k1
  · exact absurd k1 hv.no.not
  · exact absurd k1 hv.no.not

theorem Inv.has (hi : Inv S.cfg n w s) (hf : ∀ t, (S.cfg t).max + n + 2 < fuel) (hs : s.sound = true) (hm : s.maps t = some m) : S.Has fuel w t m.items := by
  intro v hv
  refine ⟨answer_ok (hi.op hf hs hm hv (by simp)), fun i => answer_ok (hi.op hf hs hm hv (by simp))⟩

/-- Behaviour of callbacks that do not fail. -/
def calmEnv : Env := ⟨fun _ => false, fun _ => false, fun _ => false, fun _ => none, fun _ => false, fun _ => id, 0, 0, 0, 0, 0⟩

theorem calmEnv_works : calmEnv.Works := ⟨⟨fun _ => rfl, fun _ => rfl⟩, fun _ => rfl⟩

theorem at_ext {l l' : List (K × V)} (h : ∀ i, at? i l = at? i l') : l = l' := by
  refine List.ext_getElem? fun i => ?_
  have := h i
  have e : ¬((i : Int) < 0) := by omega
  simpa [at?, e] using this

/-- A map has one contents. -/
theorem Setup.Has.unique {l l' : List (K × V)} (h : S.Has fuel w t l) (h' : S.Has fuel w t l') : l = l' := by
  refine at_ext fun i => ?_
  have e := ((h calmEnv calmEnv_works.1).2 i).symm.trans ((h' calmEnv calmEnv_works.1).2 i)
  simpa using e

theorem At.has (h : At S fuel cs s) (hf : ∀ t, (S.cfg t).max + cs.length + 2 < fuel) (hs : s.sound = true) (hm : s.maps t = some m) : S.Has fuel (S.now fuel cs) t m.items :=
  h.inv.has hf hs hm

theorem At.has_iff (h : At S fuel cs s) (hf : ∀ t, (S.cfg t).max + cs.length + 2 < fuel) (hs : s.sound = true) (hm : s.maps t = some m) {l : List (K × V)} :
    S.Has fuel (S.now fuel cs) t l ↔ l = m.items :=
  ⟨fun hl => hl.unique (h.has hf hs hm), fun e => e ▸ h.has hf hs hm⟩

/-- The map a call is made on is open. -/
theorem pre_open {F : Api.Faults} (hp : Pre S.api F s c) (hs : s.sound = true) (hc : c.on = some t) : ∃ m, s.maps t = some m := by
  cases c with
  | op _ o =>
    simp only [Api.Call.on, Option.some.injEq] at hc
    subst hc
    cases o <;> simp only [Pre, hs, if_true] at hp
    case put => exact ⟨hp.choose, hp.choose_spec.1⟩
    all_goals exact hp
  | discard _ =>
    simp only [Api.Call.on, Option.some.injEq] at hc
    subst hc
    simp only [Pre, hs, if_true] at hp
    exact ⟨hp.1.choose, hp.1.choose_spec.1⟩
  | prune _ =>
    simp only [Api.Call.on, Option.some.injEq] at hc
    subst hc
    simp only [Pre, hs, if_true] at hp
    exact ⟨hp.choose, hp.choose_spec.1⟩
  | _ =>
    first
    | (simp only [Api.Call.on, Option.some.injEq] at hc
       subst hc
       simp only [Pre, hs, if_true] at hp
       exact hp)
    | cases hc

/-- A history and its last call, made on map `t`. -/
theorem Hist.call (h : Hist S fuel (cs ++ [(c, v)])) (hc : c.on = some t) : Hist S fuel cs ∧ ∃ s s' m, At S fuel cs s ∧ s.sound = true ∧ s.maps t = some m ∧
    S.Has fuel (S.now fuel cs) t m.items ∧ Api.mapStep (S.api t) v.faults s t m (S.see fuel (S.now fuel cs) c v) s' c ∧ At S fuel (cs ++ [(c, v)]) s' ∧ s'.sound = true := by
  obtain ⟨h0, s, s', h1, h2, h3, h4, h5, h6⟩ := h.last (by rintro rfl; cases hc)
  obtain ⟨m, hm⟩ := pre_open h3 h2 hc
  exact ⟨h0, s, s', m, h1, h2, hm, h1.has h0.enough h2 hm, h4.on h2 hc hm, h5, h6⟩

theorem Hist.clear (h : Hist S fuel cs) (hm : ∀ x ∈ cs, Api.Mild x.2.faults x.1) : S.Clear fuel cs t := by
  obtain ⟨s, h1⟩ := exists_at h.enough h.legal
  refine ⟨[], _, rfl, .inl rfl, h1.steps.not_failed rfl fun x hx => ?_⟩
  obtain ⟨a, c, v, b, e, rfl⟩ := mem_trace hx
  exact hm (c, v) (by rw [e]; simp)

end

end SM.BT

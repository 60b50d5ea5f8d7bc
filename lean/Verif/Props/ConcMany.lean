import Verif.Props.Conc
import Verif.Conc.ManyMaps

/-! C46: several maps sharing a cache, in use at the same time. -/

namespace SM.Props

open Conc
open Spec (Op stepE)
open Api (OwnCall Mild Wanted)
open BT

section
variable {K V : Type} {S : Setup K V} {fuel : Nat} {t : TreeId} [Areas] {ok : TreeId → Api.Call K V → Env → Prop}

/-- The calls that take the mutex of map `t`, with the behaviour of the callbacks meanwhile, and what the drainer does once it has that mutex: all but FetchLocation,
which takes no mutex. PutNode puts the nodes of `t` into the area of `t`. -/
def MapOp (ok : TreeId → Api.Call K V → Env → Prop) (t : TreeId) :=
  { x : Api.Call K V × Env // Home t x.1 ∧ EnvOk t x.2 ∧ (∀ t', x.1 ≠ .location t') ∧ ok t x.1 x.2 }

/-- The bodies are the calls, taken apart into single accesses to the memory of their map, the lists of the cache and the callbacks. What Dump
prints of the cache's fields, which it reads without the cache's mutex, is left out (`execMap`). -/
def AllApart (S : Setup K V) (fuel : Nat) (body : (t : TreeId) → MapOp ok t → Conc.Body (Shared K V) (Out (Api.Reply K V))) : Prop :=
  ∀ t x, ∃ b, Split (execMap S.size S.cfg fuel x.1.1) b ∧ BConf t (own t) b ∧ body t x = inShared t (.act (fun w => w.using x.1.2) fun _ => b)

/-- All calls can be taken apart. -/
theorem allApart (S : Setup K V) (fuel : Nat) (ok : TreeId → Api.Call K V → Env → Prop) : ∃ body : (t : TreeId) → MapOp ok t → _, AllApart S fuel body := by
  have : ∀ t (x : MapOp ok t), ∃ b, ∃ b', Split (execMap S.size S.cfg fuel x.1.1) b' ∧ BConf t (own t) b' ∧ b = inShared t (.act (fun w => w.using x.1.2) fun _ => b') := fun t x => by
    obtain ⟨b, hb, hb'⟩ := Conf.execMap S.size S.cfg fuel x.2.1
    exact ⟨_, b, hb, hb' trivial, rfl⟩
  exact ⟨fun t x => (this t x).choose, fun t x => (this t x).choose_spec⟩

/-- What goes on without any of these mutexes, on the cache's own: UpdateLimits, and the drainer looking for a node to evict. -/
def sharedNoise (x y : Shared K V) : Prop := cacheNoise x.w y.w ∧ y.env = x.env

/-- The memory before the calls. -/
def sharedNow (S : Setup K V) (fuel : Nat) (cs : Calls K V) : Shared K V := ⟨S.now fuel cs, fun _ => (start : World K V).env⟩

theorem now_good {cs : Calls K V} (h : ∀ x ∈ cs, InPlace x.1 x.2) : Good (S.now fuel cs) := by
  suffices ∀ cs : Calls K V, ∀ w, Good w → (∀ x ∈ cs, InPlace x.1 x.2) → Good (S.after fuel w cs) from this cs _ .start h
  clear h cs
  intro cs
  induction cs with
  | nil => exact fun _ h _ => h
  | cons x cs ih => exact fun w h hc => ih _ (h.exec (hc x (by simp))) fun y hy => hc y (by simp [hy])

theorem noise_ok {x y : Shared K V} (h : sharedNoise x y) (hx : x.Ok) : y.Ok ∧ ∀ t, Shared.Same t x y := by
  obtain ⟨h1, h2⟩ := h
  obtain ⟨c, h3⟩ := h1.same
  obtain ⟨w, e⟩ := y
  dsimp only at h1 h2 h3
  subst h2 h3
  exact ⟨⟨{ hx.1 with }, hx.2⟩, fun t => ⟨{ Frame.refl t x.w with }, rfl⟩⟩

/-- As if the calls on `t` were run one at a time, with none on other maps. -/
theorem alone {body : (t : TreeId) → MapOp ok t → Conc.Body (Shared K V) (Out (Api.Reply K V))} (hb : AllApart S fuel body) {cs : Calls K V} (hc : ∀ x ∈ cs, InPlace x.1 x.2)
    {h : List (Event (Σ t, MapOp ok t) (TreeId × Out (Api.Reply K V)))} {x : ManyState (Shared K V) (MapOp ok) (Out (Api.Reply K V))}
    (hx : Shows (ManyMove body sharedNoise) ⟨sharedNow S fuel cs, fun _ => .idle, fun _ => none⟩ h x) (t : TreeId) :
    Linearizable (fun w c a w' => ∃ a' v, noCache a' = a ∧ S.run fuel w c.1.1 c.1.2 = (a', w'.using v)) (S.now fuel cs) (only t h) := by
  have h0 : (sharedNow S fuel cs).Ok := ⟨now_good hc, fun t n p h => by cases h⟩
  refine (linearizable_only (G := Shared.Ok) (E := Shared.Same) (fun t c => ?_) (fun _ _ => noise_ok) h0 hx t (Shared.Same.equiv t)).refine (fun (x : Shared K V) w => x.w = w) ?_ rfl
  · obtain ⟨b, -, h2, h3⟩ := hb t c
    rw [h3]
    exact (h2.using c.2.2.1).confined
  · rintro x _ c a y rfl he
    obtain ⟨b, h1, -, h3⟩ := hb t c
    rw [h3, inShared_eval] at he
    have := h1.spec.2 (x.w.using c.1.2)
    rw [execMap_eq] at this
    refine ⟨y.w, ⟨(S.run fuel x.w c.1.1 c.1.2).1, (b.eval (x.w.using c.1.2)).2.env, ?_, ?_⟩, rfl⟩
    · exact (congrArg Prod.fst this).symm.trans (congrArg Prod.fst he)
    · have hy : Shared.store t x (b.eval (x.w.using c.1.2)).2 = y := congrArg Prod.snd he
      subst hy
      exact Prod.ext rfl (congrArg Prod.snd this).symm

/-- What the specification of the API allows. -/
def mapApiSpec (S : Setup K V) (s : Api.St K V) (x : MapOp ok t) (a : Out (Api.Reply K V)) (s' : Api.St K V) : Prop :=
  ∃ o : Api.Obs K V, noCache o.out = a ∧ Api.Step S.api x.1.2.faults s x.1.1 o s'

/-- **C46.** Calls on any number of B+Trees sharing a cache, from any number of threads, and evictions by the drainer, interleaved access by access in any way the
mutexes of the maps allow, with UpdateLimits called and the drainer looking into the cache at any moment: the calls on map `t` answer as if they were made one
at a time, in an order consistent with real time, and as if the other maps were not there. Of the callbacks during calls on `t` nothing is asked but that those
for deletions and Prune do not fail, and if Prune is called that none has failed before; the other maps may be opened, discarded and used in any way (`ok`). Before that, any history. The maps have the storage to
themselves: what PutNode stores for a map lies in the area of that map, and a map is opened at locations in its area. -/
theorem C46_btrees_calls_linearizable {body : (t : TreeId) → MapOp ok t → Conc.Body (Shared K V) (Out (Api.Reply K V))} (hb : AllApart S fuel body)
    {cs : Calls K V} (hc : ∀ x ∈ cs, InPlace x.1 x.2) {s : Api.St K V} {m : Api.Map K V} (hs : At S fuel cs s) (hs1 : s.sound = true) (hs2 : s.maps t = some m)
    (hT : (∃ v, ok t (.prune t) v) → S.Clear fuel cs t)
    (hok : ∀ c v, ok t c v → OwnCall (S.api t) t c ∧ Mild v.faults c)
    {h : List (Event (Σ t, MapOp ok t) (TreeId × Out (Api.Reply K V)))} {x : ManyState (Shared K V) (MapOp ok) (Out (Api.Reply K V))}
    (hf : ∀ t, (S.cfg t).max + (cs.length + calls h) + 2 < fuel)
    (hx : Shows (ManyMove body sharedNoise) ⟨sharedNow S fuel cs, fun _ => .idle, fun _ => none⟩ h x) : Linearizable (mapApiSpec S) s (only t h) := by
  refine (alone hb hc hx t).refineN (fun n w s => Inv S.cfg (cs.length + n) w s ∧ s.sound = true ∧ ∃ m, s.maps t = some m ∧ ((∃ v, ok t (.prune t) v) → m.fails = 0)) (calls h) ?_ ⟨hs.inv, hs1, m, hs2, fun h => hs.clear (hT h) hs2⟩ (calls_only t h)
  rintro n w s x a w' hn ⟨h1, h2, m, h3, hT⟩ ⟨a', v, rfl, he⟩
  obtain ⟨o1, o2⟩ := hok _ _ x.2.2.2.2
  have hp := o1.pre (cfg := S.api) (F := x.1.2.faults) h2 h3 (fun h => hT ⟨_, h ▸ x.2.2.2.2⟩)
  obtain ⟨s', k1, k2⟩ := h1.step (fuel := fuel) (v := x.1.2) (c := x.1.1) (fun t => by have := hf t; omega) hp
  have k3 := (k1.mild h2 o2).1
  obtain ⟨-, m', k4, -⟩ := k1.keeps hp h2 (.inl k3) o1.keeps h3
  refine ⟨s', ⟨_, congrArg (fun r => noCache r.1) he, k1⟩, ?_, k3, m', k4, fun h => k1.keep_fails h2 o2 h3 k4 (hT h)⟩
  rw [he] at k2
  exact k2.using w'.env

/-- What a sorted list answers; the calls that are not operations of a sorted map leave it alone. -/
def mapSpec (S : Setup K V) (l : List (K × V)) (x : MapOp ok t) (a : Out (Api.Reply K V)) (l' : List (K × V)) : Prop :=
  match x.1.1 with
  | .op _ op => Wanted (S.cfg t).cmp op a (stepE (S.cfg t).cmp l op).1 ∧ l' = (stepE (S.cfg t).cmp l op).2
  | .dump _ cb => l' = l ∧ ∃ d, a = .ok (.dumped d) ∧ (shown d.1).Sublist l ∧ ((∀ k, cb.keyFails k = false) → (∀ v, cb.valueFails v = false) → d.2 = none ∧ shown d.1 = l)
  | _ => l' = l

omit [Areas] in
theorem wanted_noCache {cmp : Compare K} {op : Op K V} {a : Out (Api.Reply K V)} {r : Option (Spec.Ans K V)} (h : Wanted cmp op a r) : Wanted cmp op (noCache a) r := by
  rcases h with ⟨b, rfl, h⟩ | ⟨e, rfl, h⟩
  exacts [.inl ⟨b, rfl, h⟩, .inr ⟨e, rfl, h⟩]

/-- **C46.** The same, seen from the items of `t`: the answers are those of a sorted list. Here, during calls on `t`, no callback but PutNode fails. -/
theorem C46_btrees_linearizable {body : (t : TreeId) → MapOp ok t → Conc.Body (Shared K V) (Out (Api.Reply K V))} (hb : AllApart S fuel body)
    {cs : Calls K V} (hc : ∀ x ∈ cs, InPlace x.1 x.2) {l : List (K × V)} (ho : Opened S fuel cs t) (hl : S.Has fuel (S.now fuel cs) t l)
    (hT : (∃ v, ok t (.prune t) v) → S.Clear fuel cs t) (hok : ∀ c v, ok t c v → OwnCall (S.api t) t c ∧ v.Works)
    {h : List (Event (Σ t, MapOp ok t) (TreeId × Out (Api.Reply K V)))} {x : ManyState (Shared K V) (MapOp ok) (Out (Api.Reply K V))}
    (hf : ∀ t, (S.cfg t).max + (cs.length + calls h) + 2 < fuel)
    (hx : Shows (ManyMove body sharedNoise) ⟨sharedNow S fuel cs, fun _ => .idle, fun _ => none⟩ h x) : Linearizable (mapSpec S) l (only t h) := by
  obtain ⟨h0, s, s', m, h1, h2, h3, h4, -⟩ := Hist.call (cs := cs) ho rfl
  obtain rfl := h4.unique hl
  refine (alone hb hc hx t).refineN (fun n w l => ∃ s m, Inv S.cfg (cs.length + n) w s ∧ s.sound = true ∧ s.maps t = some m ∧ ((∃ v, ok t (.prune t) v) → m.fails = 0) ∧ m.items = l) (calls h) ?_
    ⟨s, m, h1.inv, h2, h3, fun h => h1.clear (hT h) h3, rfl⟩ (calls_only t h)
  clear hx hl h4 h1 h2 h3 hT
  rintro n w _ x a w' hn ⟨s, m, h1, h2, h3, hT, rfl⟩ ⟨a', v, rfl, he⟩
  obtain ⟨o1, o2⟩ := hok _ _ x.2.2.2.2
  have hp := o1.pre (cfg := S.api) (F := x.1.2.faults) h2 h3 (fun h => hT ⟨_, h ▸ x.2.2.2.2⟩)
  obtain ⟨s', k1, k2⟩ := h1.step (fuel := fuel) (v := x.1.2) (c := x.1.1) (fun t => by have := hf t; omega) hp
  obtain ⟨k3, m', k4, -, k5⟩ := k1.keeps hp h2 (.inr o2.no) o1.keeps h3
  rw [he] at k2
  refine ⟨m'.items, ?_, s', m', k2.using w'.env, k3, k4, fun h => k1.keep_fails h2 (.of_noFault o2.no) h3 k4 (hT h), rfl⟩
  have ha : (S.see fuel w x.1.1 x.1.2).out = a' := congrArg Prod.fst he
  clear he
  obtain ⟨⟨c, v⟩, hx⟩ := x
  dsimp only [mapSpec] at *
  cases c with
  | op t' op =>
    obtain rfl : t' = t := hx.1
    have k6 := k1.on h2 rfl h3
    dsimp only
    obtain ⟨-, ⟨w1, ⟨w3, rfl⟩ | ⟨-, m2, w3, rfl⟩⟩ | ⟨e, -, w2, -⟩ | ⟨e, w2, -⟩⟩ := k6
    · rw [h3, Option.some.injEq] at k4
      subst k4
      exact ⟨ha ▸ wanted_noCache w1, w3.symm⟩
    · rw [Api.set_same, Option.some.injEq] at k4
      subst k4
      exact ⟨ha ▸ wanted_noCache w1, w3.items⟩
    · exact absurd w2 o2.no.1.not
    · exact absurd w2 o2.no.1.not
  | dump t' cb =>
    obtain rfl : t' = t := hx.1
    have k6 := k1.on h2 rfl h3
    obtain ⟨-, rfl, d, d1, d2, d3, -⟩ := k6
    rw [h3, Option.some.injEq] at k4
    subst k4 ha
    dsimp only
    rw [d1]
    have hd : ∀ l : List (Line K V), shown (dropCache l) = shown l
      | .cache .. :: _ | [] | .tree .. :: _ | .tag .. :: _ | .node .. :: _ | .sum .. :: _ | .key .. :: _ | .value .. :: _ | .child .. :: _ => rfl
    exact ⟨rfl, _, rfl, by rw [hd]; exact d2, by rw [hd]; exact d3 fun _ => o2.no.1.not⟩
  | _ => exact k5.resolve_right (by rintro ⟨op, e, -⟩; cases e)

end

/-! A concrete case: map 0 as in `treeHist`, its nodes in the storage under number 7; everything else belongs to map 1. -/

/-- what lies under number 7 is map 0's -/
@[reducible] def sampleAreas : Areas := .of fun p => if p.1 = 7 then 0 else 1

/-- on map 0 calls that neither discard it nor meet failures; on map 1 anything -/
def sampleOk (t : TreeId) (c : Api.Call Nat Nat) (v : Env) : Prop := t = 0 → OwnCall (sampleSetup.api 0) 0 c ∧ v.Works

section
attribute [local instance] sampleAreas

theorem sampleEnv_area : EnvOk 0 sampleEnv := fun n p h => by cases h; rfl

theorem calmEnv_area (t : TreeId) [Areas] : EnvOk t calmEnv := fun n p h => by cases h

theorem treeHist_within : ∀ x ∈ treeHist, InPlace x.1 x.2 := by
  intro x hx
  rcases List.mem_cons.1 hx with rfl | hx
  · exact .inl ⟨0, rfl, calmEnv_area 0⟩
  · obtain ⟨c, hc, rfl⟩ := List.mem_map.1 hx
    simp only [treeCalls, List.mem_append, List.mem_map, List.mem_range] at hc
    rcases hc with ⟨k, -, rfl⟩ | hc
    · exact .inl ⟨0, rfl, sampleEnv_area⟩
    · simp only [List.mem_cons, List.not_mem_nil, or_false] at hc
      rcases hc with rfl | rfl | rfl | rfl | rfl | rfl | rfl | rfl | rfl | rfl | rfl | rfl | rfl | rfl | rfl | rfl
      all_goals first | exact .inl ⟨0, rfl, sampleEnv_area⟩ | exact .inl ⟨0, ⟨rfl, Areas.of_whole _ _⟩, sampleEnv_area⟩ | exact .inr (.inl ⟨_, _, rfl⟩)

/-- A thread that holds the mutex of a map can go on to Unlock. -/
theorem goes_on_many {σ Ans : Type} {Op : TreeId → Type} {body : (t : TreeId) → Op t → Conc.Body σ Ans} {noise : σ → σ → Prop} {u : Nat} {t : TreeId} :
    ∀ (b : Conc.Body σ Ans) {x : ManyState σ Op Ans}, x.thr u = .inside t b → ∃ y a, Shows (ManyMove body noise) x [] y ∧ y.thr = Function.update x.thr u (.leaving t a)
  | .ret _, _, h => ⟨_, _, .unseen (.refl _) (.unlock h), rfl⟩
  | .act f k, x, h => by
      obtain ⟨y, a, h1, h2⟩ := goes_on_many (k x.mem) (x := ⟨f x.mem, Function.update x.thr u (.inside t (k x.mem)), x.owner⟩) (Function.update_self ..)
      exact ⟨y, a, Shows.trans (h := []) (.unseen (.refl _) (.act h)) h1, by rw [h2]; simp⟩

def newOp : MapOp sampleOk 1 := ⟨(.new 1, calmEnv), rfl, calmEnv_area 1, nofun, fun h => absurd h (by decide)⟩

def deleteOp : MapOp sampleOk 0 := ⟨(.op 0 (.deleteByKey 120), sampleEnv), rfl, sampleEnv_area, nofun, fun _ => ⟨rfl, sampleEnv_works⟩⟩

theorem goes_on_many' {σ Ans : Type} {Op : TreeId → Type} {body : (t : TreeId) → Op t → Conc.Body σ Ans} {noise : σ → σ → Prop} {u : Nat} {t : TreeId}
    {b : Conc.Body σ Ans} {x y : ManyState σ Op Ans} {h : List (Event (Σ t, Op t) (TreeId × Ans))} (hy : Shows (ManyMove body noise) y h x) (hb : x.thr u = .inside t b) :
    ∃ z a, Shows (ManyMove body noise) y h z ∧ z.thr = Function.update x.thr u (.leaving t a) := by
  obtain ⟨z, a, h1, h2⟩ := goes_on_many b hb
  exact ⟨z, a, by simpa using hy.trans h1, h2⟩

/-- thread 0 deletes an item of map 0 while thread 1 creates map 1, both holding the mutex of their map at the same time -/
example {body : (t : TreeId) → MapOp sampleOk t → Conc.Body (Shared Nat Nat) (Out (Api.Reply Nat Nat))} :
    ∃ a b x, Shows (ManyMove body sharedNoise) ⟨sharedNow sampleSetup 60 treeHist, fun _ => .idle, fun _ => none⟩
      [.call 1 ⟨1, newOp⟩, .call 0 ⟨0, deleteOp⟩, .ret 0 (0, a), .ret 1 (1, b)] x := by
  generalize sharedNow sampleSetup 60 treeHist = x0
  have h1 := Shows.unseen (.unseen (.unseen (.seen (h := [_]) (.seen (h := []) (.refl (R := ManyMove body sharedNoise) ⟨x0, fun _ => .idle, fun _ => none⟩)
    (.call (t := 1) (i := 1) (c := newOp) rfl)) (.call (t := 0) (i := 0) (c := deleteOp) rfl))
    (.lock (t := 0) rfl rfl)) (.lock (t := 1) rfl rfl)) (.noise (m := ⟨(updateLimits 1 2 x0.w).2, x0.env⟩) ⟨.inl ⟨1, 2, rfl⟩, rfl⟩)
  obtain ⟨y, a, h2, h3⟩ := goes_on_many' (u := 0) h1 rfl
  obtain ⟨z, b, h4, h5⟩ := goes_on_many' (u := 1) (h2.seen (.ret (t := 0) (i := 0) (a := a) (by rw [h3]; rfl))) (by rw [h3]; rfl)
  exact ⟨a, b, _, h4.seen (.ret (t := 1) (by rw [h5]; rfl))⟩

example {body : (t : TreeId) → MapOp sampleOk t → Conc.Body (Shared Nat Nat) (Out (Api.Reply Nat Nat))} (hb : AllApart sampleSetup 60 body) {l : List (Nat × Nat)}
    (hl : sampleSetup.Has 60 (sampleSetup.now 60 treeHist) 0 l) {h : List (Event (Σ t, MapOp sampleOk t) (TreeId × Out (Api.Reply Nat Nat)))}
    {x : ManyState (Shared Nat Nat) (MapOp sampleOk) (Out (Api.Reply Nat Nat))} (hf : calls h ≤ 10) :=
  C46_btrees_linearizable (h := h) (x := x) hb treeHist_within (treeHist_then (ds := [(.location 0, calmEnv)]) (by simp [OwnCall, Mild]) (by simp)) hl (fun _ => treeHist_clear) (fun _ _ h => h rfl)
    (fun t => by
      have h1 : treeHist.length ≤ 43 := by simp [treeHist, treeCalls]
      have h2 : (sampleSetup.cfg t).max = 4 := rfl
      omega)

end

end SM.Props

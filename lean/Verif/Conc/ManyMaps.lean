import Verif.Conc.ConfApi
import Verif.Conc.Many
import Verif.BTree.Dump

/-! Calls on different maps of one cache stay out of each other's way. -/

namespace SM.BT

variable {K V α β : Type} [Areas] {t u : TreeId}

/-- The call is one of map `t`, is given no location of another map's, and discards nothing that others may read. -/
def Home (t : TreeId) : Api.Call K V → Prop
  | .op t' _ | .flush t' _ | .purge t' _ | .touch t' | .touchItem t' _ | .layout t' | .dimensions t' | .location t' | .dump t' _ | .new t' => t' = t
  | .prune t' | .discard t' => t' = t ∧ Whole t
  | .old t' r => t' = t ∧ own t r
  | .evict i => own t i
  | .limits _ _ | .restart => False

/-! Dump reads fields of the cache without its mutex. What it prints of them is left out here. -/

/-- Dump but for the line about the cache; btree_dump.go:8-10 and 41-48 -/
def dumpMap (cmp : Compare K) (cb : DumpCb K V) (τ : TreeId) (fuel : Nat) : M K V (List (Line K V) × Option Err) := do
  let t ← getT τ
  let r ← rootOf τ
  let l ← dumpNode cmp cb τ fuel 0 r
  return (.tree t.min t.max :: l.1, l.2)

/-- Without the line about the cache. -/
def dropCache : List (Line K V) → List (Line K V)
  | .cache .. :: l => l
  | l => l

/-- An answer, without what a dump says about the cache. -/
def noCache : Out (Api.Reply K V) → Out (Api.Reply K V)
  | .ok (.dumped d) => .ok (.dumped (dropCache d.1, d.2))
  | r => r

/-- The calls; of a dump, without the line about the cache. -/
def execMap (size : DiskNode K V → Nat) (cfg : TreeId → Par K) (fuel : Nat) : Api.Call K V → M K V (Api.Reply K V)
  | .dump t cb => reply .dumped (dumpMap (cfg t).cmp cb t fuel)
  | c => exec size cfg fuel c

omit [Areas] in
theorem noCache_reply {γ : Type} {f : γ → Api.Reply K V} (hf : ∀ a d, f a ≠ .dumped d) (m : M K V γ) (w : World K V) : noCache (reply f m w).1 = (reply f m w).1 := by
  unfold reply
  rcases m w with ⟨a | e | _, w'⟩
  · have := hf a
    dsimp only
    generalize f a = r at this
    cases r <;> first | rfl | exact absurd rfl (this _)
  · rfl
  · rfl

omit [Areas] in
theorem execMap_eq (size : DiskNode K V → Nat) (cfg : TreeId → Par K) (n : Nat) (c : Api.Call K V) (w : World K V) :
    execMap size cfg n c w = (noCache (exec size cfg n c w).1, (exec size cfg n c w).2) := by
  cases c with
  | dump t cb =>
    show reply .dumped (dumpMap _ _ _ _) w = (noCache (reply .dumped (dump _ _ _ _) w).1, (reply .dumped (dump _ _ _ _) w).2)
    unfold reply
    have h1 : dump (cfg t).cmp cb t n w = M.bind (rootOf t) (fun r => M.bind (dumpHead (w.trees t).cached) fun h => M.bind (dumpNode (cfg t).cmp cb t n 0 r) fun l =>
      M.pure (h ++ [.tree (w.trees t).min (w.trees t).max] ++ l.1, l.2)) w := rfl
    have h2 : dumpMap (cfg t).cmp cb t n w = M.bind (rootOf t) (fun r => M.bind (dumpNode (cfg t).cmp cb t n 0 r) fun l => M.pure (.tree (w.trees t).min (w.trees t).max :: l.1, l.2)) w := rfl
    rw [h1, h2]
    unfold M.bind
    rcases rootOf t w with ⟨r | e | _, w'⟩
    · dsimp only [dumpHead]
      rcases dumpNode (cfg t).cmp cb t n 0 r w' with ⟨l | e | _, w''⟩
      · simp only [M.pure, noCache]
        split <;> rfl
      · rfl
      · rfl
    · rfl
    · rfl
  | limits a b => rfl
  | restart => rfl
  | _ => exact Prod.ext (noCache_reply nofun _ _).symm rfl

namespace Conf
variable {p : Prop} {cmp : Compare K} {cb : DumpCb K V}

theorem dumpFields {d : Nat} {i : Id} (h : p → own t i) : Conf p t (BT.dumpFields t d i : M K V _) := by
  have : BT.dumpFields t d i = (BT.getT t >>= fun a => (BT.getN i : M K V _) >>= fun n => BT.getP i >>= fun q => (fun w => (Out.ok (w.lru.el i).tag, w) : M K V Tag) >>= fun g =>
    Pure.pure ((if a.cached then [.tag d g] else []) ++ [.node d n.ref n.items n.loaded n.dirty n.root n.leaf] ++ (if n.root then [] else [.sum d q.items q.kvIndex]))) := rfl
  rw [this]
  exact bind (getT fun _ => rfl) fun a => bind (getN fun hp => h hp.1) fun n => bind (getP fun hp => h hp.1.1) fun q => bind (of (.tagOf i) fun hp => .tagOf (h hp.1.1.1)) fun g => pure fun _ _ _ => trivial

theorem dumped {l : List (Line K V)} {e : Option Err} : Conf p t (Pure.pure (l, e) : M K V _) := pure fun _ => ⟨fun _ _ => trivial, fun _ _ => trivial⟩

theorem dumpLoop {d : Nat} {b : Bool} {i : Id} {rec : Id → M K V (List (Line K V) × Option Err)} (hr : ∀ {c : Id} {p : Prop}, (p → own t c) → Conf p t (rec c)) :
    ∀ (a k : Nat) {p : Prop} (_ : p → own t i), Conf p t (BT.dumpLoop cb d b i rec a k)
  | _, 0, _, _ => dumped
  | a, k + 1, p, hi => by
      have ih := @dumpLoop d b i rec hr (a + 1) k
      unfold BT.dumpLoop
      refine bind (kvGetByIndex _ hi) fun o => bind (deref fun hp => hp.2) fun (k, v) => ?_
      dsimp only
      split
      · exact dumped
      · split
        · refine bind (asItem v) fun x => ?_
          split
          · exact dumped
          · exact bind (ih fun hp => hi hp.1.1.1) fun r => dumped
        · exact bind (asNode fun hp => hp.2.2) fun c => bind (hr fun hp => hp.2) fun _ => bind (ih fun hp => hi hp.1.1.1.1) fun _ => dumped

theorem dumpNode : ∀ (n d : Nat) {i : Id} {p : Prop} (_ : p → own t i), Conf p t (BT.dumpNode cmp cb t n d i)
  | 0, _, _, _, _ => fatal
  | n + 1, d, i, p, hi => by
      have ih : ∀ {c : Id} {p : Prop}, (p → own t c) → Conf p t (BT.dumpNode cmp cb t n (d + 1) c) := fun hc => dumpNode n (d + 1) hc
      unfold BT.dumpNode
      refine bind (attempt (validateLoad hi)) fun o => ?_
      split
      · exact dumped
      · refine bind (dumpFields fun hp => hi hp.1) fun a => bind (getN fun hp => hi hp.1.1) fun x => bind (α := List (Line K V)) ?_ fun b =>
          bind (kvLen fun hp => hi hp.1.1.1.1) fun num => bind (dumpLoop ih _ _ fun hp => hi hp.1.1.1.1.1) fun c => dumped
        unfold BT.dumpLeft
        split
        · exact pure fun _ _ _ => trivial
        · split
          · exact pure fun _ _ _ => trivial
          · rename_i c hc
            exact bind (ih fun hp => hp.2.2.2.2.2.1 c hc) fun l => pure fun _ _ _ => trivial

theorem dumpMap {n : Nat} : Conf p t (BT.dumpMap cmp cb t n : M K V _) := by
  unfold BT.dumpMap
  exact bind (getT fun _ => rfl) fun a => bind rootOf fun r => bind (dumpNode n 0 fun hp => hp.2) fun l => dumped

theorem execMap (size : DiskNode K V → Nat) (cfg : TreeId → Par K) (n : Nat) {c : Api.Call K V} (hc : Home t c) : Conf True t (BT.execMap size cfg n c) := by
  cases c with
  | limits a b => exact hc.elim
  | restart => exact hc.elim
  | dump t cb => cases hc; exact reply _ dumpMap
  | op t o => cases hc; exact reply _ step
  | flush t p => cases hc; exact reply _ flush
  | purge t p => cases hc; exact reply _ purge
  | touch t => cases hc; exact reply _ touch
  | touchItem t i => cases hc; exact reply _ touchItem
  | prune t => cases hc.1; exact reply _ (prune hc.2)
  | discard t => cases hc.1; exact reply _ (discard hc.2)
  | layout t => cases hc; exact reply _ fetchLayoutReport
  | dimensions t => cases hc; exact reply _ fetchDimensionsReport
  | location t => cases hc; exact reply _ fetchLocation
  | new t => cases hc; exact reply _ newBPlusTree
  | old t r => cases hc.1; exact reply _ (oldBPlusTree fun _ => hc.2)
  | evict x => exact reply _ (drainerEvict fun _ => hc)

end Conf

/-! ### Worlds stay in order -/

theorem BConf.eval {P : β → Prop} {b : Conc.Body (World K V) β} (h : BConf t P b) : ∀ {w}, Good w → EnvOk t w.env → Good (b.eval w).2 ∧ EnvOk t (b.eval w).2.env ∧ P (b.eval w).1 := by
  induction h with
  | ret h => exact fun h1 h2 => ⟨h1, h2, h⟩
  | act h1 _ _ _ ih => exact fun g e => ih _ g e (h1 _ g e).1 (h1 _ g e).2

theorem Conf.good [Own α] {m : M K V α} (h : Conf True t m) {w : World K V} (hw : Good w) (he : EnvOk t w.env) : Good (m w).2 := by
  obtain ⟨b, h1, h2⟩ := h
  have := ((h2 trivial).eval hw he).1
  rwa [h1.spec.2 w] at this

/-- The call and the callbacks keep to the areas of the maps: the call is given no location of another map's, PutNode puts the nodes of a map where they belong. -/
def InPlace (c : Api.Call K V) (v : Env) : Prop := (∃ t, Home t c ∧ EnvOk t v) ∨ (∃ a b, c = .limits a b) ∨ c = .restart

theorem Good.using {w : World K V} (h : Good w) (v : Env) : Good (w.using v) := { h with }

theorem Good.ofDisk {w : World K V} (h : ∀ r d, w.disk r = some d → r.len ≠ 0 ∧ ∀ t, reads t (r.num, r.off) → own t d) : Good (BT.boot w) where
  node i := by simp [BT.boot, freshStruct, own_node, own_zero, own_none, own_some, own_leaf]
  ps i := by simp [BT.boot, own_psum, own_none]
  tree t := by simp [BT.boot, own_treeS, own_none, own_nil]
  disk := h
  lru := ⟨_, LruS.WF.empty⟩

theorem Good.boot {w : World K V} (h : Good w) : Good (boot w) := .ofDisk h.disk

theorem Good.start : Good (BT.start : World K V) := Good.ofDisk (w := (BT.start : World K V)) (by intro r d h; cases h)

theorem Good.exec {size : DiskNode K V → Nat} {cfg : TreeId → Par K} {n : Nat} {w : World K V} {c : Api.Call K V} {v : Env} (h : Good w) (hc : InPlace c v) :
    Good (BT.exec size cfg n c (w.using v)).2 := by
  rcases hc with ⟨t, h1, h2⟩ | ⟨a, b, rfl⟩ | rfl
  · have := (Conf.execMap size cfg n h1).good (h.using v) h2
    rwa [execMap_eq] at this
  · simp only [BT.exec]
    rw [reply_world]
    exact { h with }
  · exact (h.using v).boot

/-! ### The memory of several maps in use at once -/

/-- The memory, with the behaviour of the callbacks during the call each map is busy with. -/
structure Shared (K V : Type) where
  w : World K V
  env : TreeId → Env

namespace Shared
variable {x y : Shared K V}

/-- The world, as the call on `t` knows it. -/
def view (t : TreeId) (x : Shared K V) : World K V := x.w.using (x.env t)

/-- The world, as the call on `t` leaves it. -/
def store (t : TreeId) (x : Shared K V) (w : World K V) : Shared K V := ⟨w.using x.w.env, Function.update x.env t w.env⟩

/-- Everything is in order. -/
def Ok (x : Shared K V) : Prop := Good x.w ∧ ∀ t, EnvOk t (x.env t)

/-- The same, as far as `t` is concerned. -/
def Same (t : TreeId) (x y : Shared K V) : Prop := Frame t x.w y.w ∧ x.env t = y.env t

theorem Same.equiv (t : TreeId) : Equivalence (Same t : Shared K V → Shared K V → Prop) :=
  ⟨fun _ => ⟨.refl _ _, rfl⟩, fun h => ⟨h.1.symm, h.2.symm⟩, fun h g => ⟨h.1.trans g.1, h.2.trans g.2⟩⟩

theorem Ok.view (h : x.Ok) (t : TreeId) : Good (x.view t) ∧ EnvOk t (x.view t).env := ⟨h.1.using _, h.2 t⟩

theorem Ok.store (h : x.Ok) {w : World K V} (h1 : Good w) (h2 : EnvOk t w.env) : (x.store t w).Ok :=
  ⟨h1.using _, fun u => by
    by_cases hu : u = t
    · subst hu; simpa [Shared.store] using h2
    · simpa [Shared.store, Function.update_of_ne hu] using h.2 u⟩

theorem Same.view (h : Same t x y) : Agree t (x.view t) (y.view t) := ⟨{ h.1 with }, h.2⟩

theorem Same.store (h : Same t x y) {v w : World K V} (hw : Agree t v w) : Same t (x.store t v) (y.store t w) :=
  ⟨{ hw.1 with }, by simp [Shared.store, hw.2]⟩

theorem same_store (hu : u ≠ t) {w : World K V} (h : Frame u (x.view t) w) : Same u x (x.store t w) :=
  ⟨{ h with }, by simp [Shared.store, Function.update_of_ne hu]⟩

end Shared

/-- The steps of a call on `t`, in the shared memory. -/
def inShared (t : TreeId) : Conc.Body (World K V) β → Conc.Body (Shared K V) β
  | .ret a => .ret a
  | .act f k => .act (fun x => x.store t (f (x.view t))) fun x => inShared t (k (x.view t))

omit [Areas] in
theorem inShared_eval : ∀ (b : Conc.Body (World K V) β) (x : Shared K V), (inShared t b).eval x = ((b.eval (x.view t)).1, x.store t (b.eval (x.view t)).2)
  | .ret a, x => by
      show (a, x) = (a, x.store t (x.view t))
      have : x.store t (x.view t) = x := by
        show (⟨x.w, Function.update x.env t (x.env t)⟩ : Shared K V) = x
        rw [Function.update_eq_self]
      rw [this]
  | .act f k, x => by
      have := inShared_eval (k (x.view t)) (x.store t (f (x.view t)))
      have hv : (x.store t (f (x.view t))).view t = f (x.view t) := by
        show World.using _ (Function.update x.env t _ t) = _
        rw [Function.update_self]
        rfl
      have hs : ∀ w, (x.store t (f (x.view t))).store t w = x.store t w := fun w => by
        show (⟨_, Function.update (Function.update _ _ _) _ _⟩ : Shared K V) = _
        rw [Function.update_idem]
        rfl
      rw [hv, hs] at this
      exact this

theorem BConf.confined {P : β → Prop} {b : Conc.Body (World K V) β} (h : BConf t P b) : Conc.Confined Shared.Ok Shared.Same t (inShared t b) := by
  induction h with
  | ret _ => exact .ret _
  | act h1 h2 h3 _ ih =>
    refine .act (fun x hx => ?_) (fun u hu x hx => ?_) (fun x y hx hy e => ?_) (fun x y hx hy e => ?_) fun x hx => ?_
    · obtain ⟨k1, k2⟩ := hx.view t
      exact hx.store (h1 _ k1 k2).1 (h1 _ k1 k2).2
    · obtain ⟨k1, k2⟩ := hx.view t
      exact Shared.same_store hu (h2 _ k1 k2 u hu)
    · exact e.store (h3 _ _ (hx.view t).1 (hy.view t).1 (hx.view t).2 e.view).2
    · exact congrArg (inShared t) (h3 _ _ (hx.view t).1 (hy.view t).1 (hx.view t).2 e.view).1
    · exact ih _ (hx.view t).1 (hx.view t).2

theorem BConf.using {P : β → Prop} {b : Conc.Body (World K V) β} (hb : BConf t P b) {v : Env} (hv : EnvOk t v) : BConf t P (.act (fun w => w.using v) fun _ => b) :=
  .act (fun _ hw _ => ⟨hw.using v, hv⟩) (fun _ _ _ _ _ => { Frame.refl _ _ with }) (fun _ _ _ _ _ g => ⟨rfl, { g.1 with }, rfl⟩) fun _ _ _ => hb

end SM.BT

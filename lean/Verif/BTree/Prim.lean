import Verif.BTree.State

/-! What the basic actions do: kvLLRB calls, allocation, and the cache marks. -/

namespace SM.BT

open Spec (at? below above)

variable {K V : Type} {β : Type}

/-! ### Worlds updated in one place -/

/-- Assign a node struct. -/
def World.setN (w : World K V) (i : Id) (n : NodeS K V) : World K V := { w with node := upd w.node i n }
/-- Assign prefix-sum fields. -/
def World.setP (w : World K V) (i : Id) (p : PSum) : World K V := { w with ps := upd w.ps i p }

/-- Assign a tree struct. -/
def World.setT (w : World K V) (i : TreeId) (t : TreeS) : World K V := { w with trees := upd w.trees i t }

/-- Assign the cache lists. -/
def World.setL (w : World K V) (s : LruS) : World K V := { w with lru := s }
/-- Assign limits and counters. -/
def World.setC (w : World K V) (c : Ctl) : World K V := { w with ctl := c }

section
variable (w : World K V) (i : Id) (σ : TreeId) (n : NodeS K V) (p : PSum) (t : TreeS) (s : LruS) (c : Ctl)
@[simp] theorem setL_node : (w.setL s).node = w.node := rfl
@[simp] theorem setL_ps : (w.setL s).ps = w.ps := rfl
@[simp] theorem setL_lru : (w.setL s).lru = s := rfl
@[simp] theorem setL_ctl : (w.setL s).ctl = w.ctl := rfl
@[simp] theorem setL_trees : (w.setL s).trees = w.trees := rfl
@[simp] theorem setL_next : (w.setL s).next = w.next := rfl
@[simp] theorem setL_disk : (w.setL s).disk = w.disk := rfl
@[simp] theorem setL_env : (w.setL s).env = w.env := rfl
@[simp] theorem setL_log : (w.setL s).log = w.log := rfl
@[simp] theorem setC_node : (w.setC c).node = w.node := rfl
@[simp] theorem setC_ps : (w.setC c).ps = w.ps := rfl
@[simp] theorem setC_lru : (w.setC c).lru = w.lru := rfl
@[simp] theorem setC_ctl : (w.setC c).ctl = c := rfl
@[simp] theorem setC_trees : (w.setC c).trees = w.trees := rfl
@[simp] theorem setC_next : (w.setC c).next = w.next := rfl
@[simp] theorem setC_disk : (w.setC c).disk = w.disk := rfl
@[simp] theorem setC_env : (w.setC c).env = w.env := rfl
@[simp] theorem setC_log : (w.setC c).log = w.log := rfl
@[simp] theorem setT_node : (w.setT σ t).node = w.node := rfl
@[simp] theorem setT_ps : (w.setT σ t).ps = w.ps := rfl
@[simp] theorem setT_lru : (w.setT σ t).lru = w.lru := rfl
@[simp] theorem setT_ctl : (w.setT σ t).ctl = w.ctl := rfl
@[simp] theorem setT_trees : (w.setT σ t).trees = upd w.trees σ t := rfl
@[simp] theorem setT_next : (w.setT σ t).next = w.next := rfl
@[simp] theorem setT_disk : (w.setT σ t).disk = w.disk := rfl
@[simp] theorem setT_env : (w.setT σ t).env = w.env := rfl
@[simp] theorem setT_log : (w.setT σ t).log = w.log := rfl
theorem modT_run (g : TreeS → TreeS) : modT σ g w = (.ok (), w.setT σ (g (w.trees σ))) := rfl
@[simp] theorem setN_node : (w.setN i n).node = upd w.node i n := rfl
@[simp] theorem setN_ps : (w.setN i n).ps = w.ps := rfl
@[simp] theorem setN_lru : (w.setN i n).lru = w.lru := rfl
@[simp] theorem setN_ctl : (w.setN i n).ctl = w.ctl := rfl
@[simp] theorem setN_trees : (w.setN i n).trees = w.trees := rfl
@[simp] theorem setN_next : (w.setN i n).next = w.next := rfl
@[simp] theorem setN_disk : (w.setN i n).disk = w.disk := rfl
@[simp] theorem setN_env : (w.setN i n).env = w.env := rfl
@[simp] theorem setN_log : (w.setN i n).log = w.log := rfl
@[simp] theorem setP_node : (w.setP i p).node = w.node := rfl
@[simp] theorem setP_ps : (w.setP i p).ps = upd w.ps i p := rfl
@[simp] theorem setP_lru : (w.setP i p).lru = w.lru := rfl
@[simp] theorem setP_ctl : (w.setP i p).ctl = w.ctl := rfl
@[simp] theorem setP_trees : (w.setP i p).trees = w.trees := rfl
@[simp] theorem setP_next : (w.setP i p).next = w.next := rfl
@[simp] theorem setP_disk : (w.setP i p).disk = w.disk := rfl
@[simp] theorem setP_env : (w.setP i p).env = w.env := rfl
@[simp] theorem setP_log : (w.setP i p).log = w.log := rfl
theorem modN_run (g : NodeS K V → NodeS K V) : modN i g w = (.ok (), w.setN i (g (w.node i))) := rfl
theorem modP_run (g : PSum → PSum) : modP i g w = (.ok (), w.setP i (g (w.ps i))) := rfl
end

/-! ### How a world may evolve -/

/-- What every call on tree `τ` keeps: other trees, the tree's parameters, the client. -/
structure Evo (τ : TreeId) (w w' : World K V) : Prop where
  next : w.next ≤ w'.next
  others : ∀ σ, σ ≠ τ → w'.trees σ = w.trees σ
  cached : (w'.trees τ).cached = (w.trees τ).cached
  min : (w'.trees τ).min = (w.trees τ).min
  max : (w'.trees τ).max = (w.trees τ).max
  getF : w'.env.getFails = w.env.getFails
  unpF : w'.env.unpackFails = w.env.unpackFails
  putL : (w'.env.putLoc, w'.env.packFails) = (w.env.putLoc, w.env.packFails)
  disF : w'.env.discardFails = w.env.discardFails
  low : w'.ctl.low = w.ctl.low
  high : w'.ctl.high = w.ctl.high

/-- Besides, nothing is written to or discarded from disk. -/
structure Quiet (τ : TreeId) (w w' : World K V) : Prop extends Evo τ w w' where
  disk : w'.disk = w.disk
  log : w'.log = w.log
  puts : w'.env.puts = w.env.puts
  discards : w'.env.discards = w.env.discards

/-- Besides, the tree struct itself is unchanged. -/
structure Calm (τ : TreeId) (w w' : World K V) : Prop extends Quiet τ w w' where
  tree : w'.trees τ = w.trees τ

theorem Evo.refl (τ : TreeId) (w : World K V) : Evo τ w w :=
  ⟨le_refl _, fun _ _ => rfl, rfl, rfl, rfl, rfl, rfl, rfl, rfl, rfl, rfl⟩
theorem Evo.trans {τ : TreeId} {a b c : World K V} (h : Evo τ a b) (g : Evo τ b c) : Evo τ a c :=
  ⟨le_trans h.next g.next, fun σ hσ => (g.others σ hσ).trans (h.others σ hσ), g.cached.trans h.cached,
   g.min.trans h.min, g.max.trans h.max, g.getF.trans h.getF, g.unpF.trans h.unpF, g.putL.trans h.putL,
   g.disF.trans h.disF, g.low.trans h.low, g.high.trans h.high⟩
theorem Quiet.refl (τ : TreeId) (w : World K V) : Quiet τ w w := ⟨.refl τ w, rfl, rfl, rfl, rfl⟩
theorem Quiet.trans {τ : TreeId} {a b c : World K V} (h : Quiet τ a b) (g : Quiet τ b c) : Quiet τ a c :=
  ⟨h.toEvo.trans g.toEvo, g.disk.trans h.disk, g.log.trans h.log, g.puts.trans h.puts,
   g.discards.trans h.discards⟩
theorem Calm.refl (τ : TreeId) (w : World K V) : Calm τ w w := ⟨.refl τ w, rfl⟩
theorem Calm.trans {τ : TreeId} {a b c : World K V} (h : Calm τ a b) (g : Calm τ b c) : Calm τ a c :=
  ⟨h.toQuiet.trans g.toQuiet, g.tree.trans h.tree⟩

/-- Only heap and cache changed. -/
theorem Calm.of {τ : TreeId} {w w' : World K V} (h1 : w.next ≤ w'.next) (h2 : w'.trees = w.trees)
    (h3 : w'.env = w.env) (h4 : w'.disk = w.disk) (h5 : w'.log = w.log)
    (h6 : w'.ctl.low = w.ctl.low) (h7 : w'.ctl.high = w.ctl.high) : Calm τ w w' :=
  ⟨⟨⟨h1, fun _ _ => by rw [h2], by rw [h2], by rw [h2], by rw [h2], by rw [h3], by rw [h3], by rw [h3],
    by rw [h3], h6, h7⟩, h4, h5, by rw [h3], by rw [h3]⟩, by rw [h2]⟩

theorem Calm.setN (τ : TreeId) (w : World K V) (i : Id) (n : NodeS K V) : Calm τ w (w.setN i n) :=
  .of (le_refl _) rfl rfl rfl rfl rfl rfl
theorem Calm.setP (τ : TreeId) (w : World K V) (i : Id) (p : PSum) : Calm τ w (w.setP i p) :=
  .of (le_refl _) rfl rfl rfl rfl rfl rfl

/-! ### kvLLRB -/

section kv
variable {C : Cmp K} {w : World K V} {i : Id} {l : List (K × Val V)}

theorem KvIs.valid {kv} (h : KvIs C kv l) : AllValid C.Valid l := by
  obtain ⟨t, -, h, rfl⟩ := h; exact h.valid
theorem KvIs.sorted {kv} (h : KvIs C kv l) : Spec.Sorted C.cmp l := by
  obtain ⟨t, -, h, rfl⟩ := h; exact h.sorted
theorem KvIs.nil : KvIs C (some (.nil : LLRB.Tree K (Val V))) [] := ⟨_, rfl, .nil, rfl⟩

theorem kvOf_run {t} (h : (w.node i).kv = some t) : kvOf i w = (.ok t, w) := by
  simp [kvOf, h]

theorem kvLen_run (h : KvIs C (w.node i).kv l) : kvLen i w = (.ok l.length, w) := by
  obtain ⟨t, h1, h2, rfl⟩ := h
  simp [kvLen, bind_ok (kvOf_run h1), h2.len_eq]

theorem kvGet_run (h : KvIs C (w.node i).kv l) (x : Int) :
    kvGetByIndex i x w = (.ok (at? x l), w) := by
  obtain ⟨t, h1, h2, rfl⟩ := h
  simp only [kvGetByIndex, bind_ok (kvOf_run h1), LLRB.Tree.getByIndex_spec h2.lens x, deref_some_run]

theorem at?_nat (n : Nat) (l : List (K × V)) : at? (n : Int) l = l[n]? := by
  simp only [at?]; rw [if_neg (by omega)]; simp

theorem kvPut_run (h : KvIs C (w.node i).kv l) {k : K} (hk : C.Valid k) (v : Val V)
    (hn : ∀ p ∈ l, eqb C.cmp k p.1 = false) :
    ∃ t, kvPut C.cmp i k v w = (.ok true, w.setN i { w.node i with kv := some t }) ∧
      KvIs C (some t) (below C.cmp k l ++ (k, v) :: above C.cmp k l) := by
  obtain ⟨t, h1, h2, rfl⟩ := h
  obtain ⟨t', h3, h4, h5⟩ := LLRB.Tree.put_spec C.law (value := v) h2 hk
  have hh : Spec.has C.cmp k t.toList = false := by
    cases hh : Spec.has C.cmp k t.toList with
    | false => rfl
    | true =>
      obtain ⟨p, hp, e⟩ := has_iff.1 hh
      rw [hn p hp] at e; cases e
  rw [hh] at h3 h5
  exact ⟨t', by simp only [kvPut, bind_ok (kvOf_run h1), h3]; rfl, t', rfl, h4, by simpa using h5⟩

theorem kvPutIgnore_run (h : KvIs C (w.node i).kv l) {k : K} (hk : C.Valid k) (v : Val V)
    (hn : ∀ p ∈ l, eqb C.cmp k p.1 = false) :
    ∃ t, kvPutIgnore C.cmp i k v w = (.ok (), w.setN i { w.node i with kv := some t }) ∧
      KvIs C (some t) (below C.cmp k l ++ (k, v) :: above C.cmp k l) := by
  obtain ⟨t, h1, h2⟩ := kvPut_run h hk v hn
  exact ⟨t, by simp only [kvPutIgnore, bind_ok (attempt_ok h1)]; rfl, h2⟩

theorem kvDel_run (h : KvIs C (w.node i).kv l) {n : Nat} (hn : n < l.length) :
    ∃ t, kvDeleteByIndex C.cmp i n w = (.ok true, w.setN i { w.node i with kv := some t }) ∧
      KvIs C (some t) (l.eraseIdx n) := by
  obtain ⟨t, h1, h2, rfl⟩ := h
  obtain ⟨t', h3, h4, h5, -⟩ := LLRB.Tree.deleteByIndex_spec C.law h2 n
  have hs : (at? (n : Int) t.toList).isSome = true := by
    rw [at?_nat]; simp [hn]
  rw [hs] at h3 h5
  exact ⟨t', by simp only [kvDeleteByIndex, bind_ok (kvOf_run h1), h3]; rfl, t', rfl, h4, by simpa using h5⟩

theorem kvChild_run {l : List (K × Id)} (h : KvIs C (w.node i).kv (innerKv l)) {n : Nat} {k : K} {c : Id}
    (hn : l[n]? = some (k, c)) : kvChild i (n : Int) w = (.ok c, w) := by
  simp only [kvChild, bind_ok (kvGet_run h n), at?_nat, innerKv, List.getElem?_map, hn, Option.map_some]
  rfl

theorem kvChildOk_run {l : List (K × Id)} (h : KvIs C (w.node i).kv (innerKv l)) {n : Nat} {k : K} {c : Id}
    (hn : l[n]? = some (k, c)) (line : Nat) : kvChildOk line i (n : Int) w = (.ok c, w) := by
  simp only [kvChildOk, bind_ok (kvGet_run h n), at?_nat, innerKv, List.getElem?_map, hn, Option.map_some,
    must_some_bind]
  rfl

end kv

/-! ### Cells from node structs -/

/-- Reassign a node struct within a cell that keeps its children. -/
theorem St.setN {w : World K V} {c c' : Cell K V} {R : Multiset (Cell K V)} {X : Multiset Id} (h : St w (c ::ₘ R) X)
    {n : NodeS K V} (hid : c'.id = c.id) (hkids : c'.body.kids = c.body.kids)
    (h1 : n.tree = c'.tree) (h2 : n.parent = c'.parent) (h3 : n.root = c'.root) (h4 : n.ref = c'.ref)
    (h5 : n.dirty = c'.dirty) (h6 : BodyIs c'.cm n w.ps c'.body) : St (w.setN c.id n) (c' ::ₘ R) X := by
  refine h.set hid hkids (fun i hi => by simp [upd, hi]) (fun _ _ => rfl) rfl ?_
  constructor <;> simp [upd, *]

/-- The entry of a node in the cache lists, if there is a cache. -/
def ent (ca : Bool) (x : Id) (d : Bool) : Multiset (Id × Bool) := if ca then {(x, d)} else 0

@[simp] theorem ent_true (x : Id) (d : Bool) : ent true x d = {(x, d)} := rfl
@[simp] theorem ent_false (x : Id) (d : Bool) : ent false x d = 0 := rfl

section cache
variable {τ : TreeId} {ca : Bool} {w : World K V} {x : Id} {L : Multiset (Id × Bool)}

theorem onLru_none {f : LruS → Option LruS} (hc : (w.trees τ).cached = false) :
    onLru τ f w = (.ok (), w) := by simp [onLru, hc]

theorem onLru_some {f : LruS → Option LruS} {s : LruS} (hc : (w.trees τ).cached = true) (h : f w.lru = some s) :
    onLru τ f w = (.ok (), w.setL s) := by
  simp [onLru, hc, h, World.setL]

theorem onCtl_run (f : Ctl → Ctl) (hl : ∀ c, (f c).low = c.low) (hh : ∀ c, (f c).high = c.high) :
    ∃ c : Ctl, onCtl τ f w = (.ok (), w.setC c) ∧ c.low = w.ctl.low ∧ c.high = w.ctl.high := by
  cases hc : (w.trees τ).cached
  · exact ⟨w.ctl, by simp [onCtl, hc]; rfl, rfl, rfl⟩
  · exact ⟨f w.ctl, by simp [onCtl, hc]; rfl, hl _, hh _⟩

theorem place_run (hc : (w.trees τ).cached = ca) {b : Bool} (h : LruIs w.lru (ent ca x b + L)) (d : Bool) :
    ∃ s, onLru τ (fun s => s.place d x) w = (.ok (), w.setL s) ∧ LruIs s (ent ca x d + L) := by
  cases ca
  · exact ⟨w.lru, onLru_none hc, by simpa using h⟩
  · simp only [ent_true, Multiset.singleton_add] at h ⊢
    obtain ⟨s, h1, h2⟩ := h.place d
    exact ⟨s, onLru_some hc h1, h2⟩

theorem placeFresh_run (hc : (w.trees τ).cached = ca) (h : LruIs w.lru L) (hn : ∀ d, (x, d) ∉ L) (d : Bool) :
    ∃ s, onLru τ (fun s => s.place d x) w = (.ok (), w.setL s) ∧ LruIs s (ent ca x d + L) := by
  cases ca
  · exact ⟨w.lru, onLru_none hc, by simpa using h⟩
  · obtain ⟨s, h1, h2⟩ := h.placeFresh hn d
    exact ⟨s, onLru_some hc h1, by simpa using h2⟩

theorem drop_run (hc : (w.trees τ).cached = ca) {b : Bool} (h : LruIs w.lru (ent ca x b + L)) :
    ∃ s, onLru τ (fun s => s.drop x) w = (.ok (), w.setL s) ∧ LruIs s L := by
  cases ca
  · exact ⟨w.lru, onLru_none hc, by simpa using h⟩
  · simp only [ent_true, Multiset.singleton_add] at h
    obtain ⟨s, h1, h2⟩ := h.drop
    exact ⟨s, onLru_some hc h1, h2⟩

theorem used_run (hc : (w.trees τ).cached = ca) {b : Bool} (h : LruIs w.lru (ent ca x b + L)) :
    ∃ s, markNodeUsed τ x w = (.ok (), w.setL s) ∧ LruIs s (ent ca x b + L) := by
  cases ca
  · exact ⟨w.lru, onLru_none hc, by simpa using h⟩
  · simp only [ent_true, Multiset.singleton_add] at h ⊢
    obtain ⟨s, h1, h2⟩ := h.used (Multiset.mem_cons_self _ _)
    exact ⟨s, onLru_some hc h1, h2⟩

theorem init_run (h : LruIs w.lru L) (hn : ∀ d, (x, d) ∉ L) : initNodeAsEvicted τ x w = (.ok (), w) := by
  unfold initNodeAsEvicted
  cases hc : (w.trees τ).cached
  · exact onLru_none hc
  · rw [onLru_some hc (by rw [if_pos (h.tag_none.2 hn), h.init hn])]; rfl

end cache

theorem Calm.lru (τ : TreeId) (w : World K V) (s : LruS) : Calm τ w (w.setL s) :=
  .of (le_refl _) rfl rfl rfl rfl rfl rfl
theorem Calm.ctl (τ : TreeId) (w : World K V) (c : Ctl) (h1 : c.low = w.ctl.low) (h2 : c.high = w.ctl.high) :
    Calm τ w (w.setC c) :=
  .of (le_refl _) rfl rfl rfl rfl h1 h2

theorem startDrainer_run {τ : TreeId} (w : World K V) :
    ∃ c : Ctl, startDrainer τ w = (.ok (), w.setC c) ∧ c.low = w.ctl.low ∧ c.high = w.ctl.high := by
  unfold startDrainer
  exact onCtl_run _ (fun c => by split <;> rfl) (fun c => by split <;> rfl)

/-- Body and everything but `loaded`-related fields unaffected by a change of `ref`/`dirty`. -/
theorem BodyIs.congr {C : Cmp K} {n n' : NodeS K V} {ps : Id → PSum} {b : Body K V} (h : BodyIs C n ps b)
    (h1 : n'.loaded = n.loaded) (h2 : n'.items = n.items) (h3 : n'.leaf = n.leaf) (h4 : n'.kv = n.kv)
    (h5 : n'.left = n.left) (h6 : n'.psRoot = n.psRoot) : BodyIs C n' ps b := by
  cases b <;> simpa only [BodyIs, h1, h2, h3, h4, h5, h6] using h

/-- The stale list after a node with location `r` was put on it. -/
def staleAdd (r : Ref) (l : List Ref) : List Ref :=
  if r.len = 0 then l else if r ∈ l then l else r :: l

/-- A tree struct with another stale list. -/
structure Stale (τ : TreeId) (w w' : World K V) (l : List Ref) : Prop extends Quiet τ w w' where
  stale : (w'.trees τ).stale = l
  root : (w'.trees τ).root = (w.trees τ).root

theorem Stale.of_calm {τ : TreeId} {w w' : World K V} (h : Calm τ w w') : Stale τ w w' (w.trees τ).stale :=
  ⟨h.toQuiet, by rw [h.tree], by rw [h.tree]⟩
theorem Calm.stale {τ : TreeId} {a b c : World K V} {l} (h : Calm τ a b) (g : Stale τ b c l) : Stale τ a c l :=
  ⟨h.toQuiet.trans g.toQuiet, g.stale, by rw [g.root, h.tree]⟩
theorem Stale.calm {τ : TreeId} {a b c : World K V} {l} (h : Stale τ a b l) (g : Calm τ b c) : Stale τ a c l :=
  ⟨h.toQuiet.trans g.toQuiet, by rw [g.tree, h.stale], by rw [g.tree, h.root]⟩
theorem Stale.trans {τ : TreeId} {a b c : World K V} {l l'} (h : Stale τ a b l) (g : Stale τ b c l') :
    Stale τ a c l' :=
  ⟨h.toQuiet.trans g.toQuiet, g.stale, g.root.trans h.root⟩

theorem placeStale_run {τ : TreeId} {w : World K V} {c : Cell K V} {S} {X : Multiset Id} (h : St w (c ::ₘ S) X)
    (hz : c.ref.len = 0 → c.ref = .zero) :
    ∃ w', placeStale τ c.id w = (.ok (), w') ∧ St w' ({ c with ref := .zero } ::ₘ S) X ∧ w'.lru = w.lru ∧
      Stale τ w w' (staleAdd c.ref (w.trees τ).stale) := by
  have hc := h.head
  have hr := hc.ref
  by_cases h0 : c.ref.len = 0
  · refine ⟨w, ?_, ?_, rfl, ?_⟩
    · simp [placeStale, hr, h0]
    · rw [← hz h0]; exact h
    · simpa [staleAdd, h0] using Stale.of_calm (.refl τ w)
  · have h1 := h.same (w' := w.setT τ { w.trees τ with stale := staleAdd c.ref (w.trees τ).stale }) rfl rfl rfl
    refine ⟨_, ?_, h1.setN (c' := { c with ref := .zero }) (n := { w.node c.id with ref := .zero }) rfl rfl
      hc.tree hc.parent hc.root rfl hc.dirty (hc.body.congr rfl rfl rfl rfl rfl rfl), rfl, ?_⟩
    · simp only [placeStale, getN_bind, hr, ne_eq, h0, not_false_eq_true, if_true, staleAdd, if_false]
      rfl
    · refine ⟨⟨⟨le_refl _, fun σ hσ => ?_, ?_, ?_, ?_, rfl, rfl, rfl, rfl, rfl, rfl⟩, rfl, rfl, rfl, rfl⟩, ?_, ?_⟩ <;>
        simp [upd, *]

/-- `markNodeDirty` on a node that is (or was to be) in the cache. -/
theorem markDirty_run {τ : TreeId} {ca : Bool} {w : World K V} {c : Cell K V} {S} {X : Multiset Id} {L : Multiset (Id × Bool)}
    (h : St w (c ::ₘ S) X) (hz : c.ref.len = 0 → c.ref = .zero)
    (hc : (w.trees τ).cached = ca) (hl : (∃ b, LruIs w.lru (ent ca c.id b + L)) ∨ (LruIs w.lru L ∧ ∀ d, (c.id, d) ∉ L)) :
    ∃ w', markNodeDirty τ c.id w = (.ok (), w') ∧ St w' ({ c with ref := .zero, dirty := true } ::ₘ S) X ∧
      LruIs w'.lru (ent ca c.id true + L) ∧ Stale τ w w' (staleAdd c.ref (w.trees τ).stale) := by
  have hcc := h.head
  have h1 : St (w.setN c.id { w.node c.id with dirty := true }) ({ c with dirty := true } ::ₘ S) X :=
    h.setN rfl rfl hcc.tree hcc.parent hcc.root hcc.ref rfl (hcc.body.congr rfl rfl rfl rfl rfl rfl)
  obtain ⟨w2, h2, h3, h4, h5⟩ := placeStale_run (τ := τ) (c := { c with dirty := true }) h1 hz
  have hc2 : (w2.trees τ).cached = ca := by rw [h5.cached]; exact hc
  have : ∃ s, onLru τ (fun s => s.place true c.id) w2 = (.ok (), w2.setL s) ∧
      LruIs s (ent ca c.id true + L) := by
    rcases hl with ⟨b, hl⟩ | ⟨hl, hn⟩
    · exact place_run hc2 (by rw [h4]; exact hl) true
    · exact placeFresh_run hc2 (by rw [h4]; exact hl) hn true
  obtain ⟨s, h6, h7⟩ := this
  refine ⟨_, ?_, h3.same (w' := w2.setL s) rfl rfl rfl, h7, ?_⟩
  · unfold markNodeDirty
    rw [bind_ok (modN_run w c.id _), bind_ok h2]
    exact h6
  · exact (Calm.setN τ w c.id _).stale (h5.calm (Calm.lru τ w2 s))

/-- `markNodeClean` -/
theorem markClean_run {τ : TreeId} {ca : Bool} {w : World K V} {c : Cell K V} {S} {X : Multiset Id} {L : Multiset (Id × Bool)}
    (h : St w (c ::ₘ S) X)
    (hc : (w.trees τ).cached = ca) (hl : (∃ b, LruIs w.lru (ent ca c.id b + L)) ∨ (LruIs w.lru L ∧ ∀ d, (c.id, d) ∉ L)) :
    ∃ w', markNodeClean τ c.id w = (.ok (), w') ∧ St w' ({ c with dirty := false } ::ₘ S) X ∧
      LruIs w'.lru (ent ca c.id false + L) ∧ Calm τ w w' := by
  have hcc := h.head
  have h1 : St (w.setN c.id { w.node c.id with dirty := false }) ({ c with dirty := false } ::ₘ S) X :=
    h.setN rfl rfl hcc.tree hcc.parent hcc.root hcc.ref rfl (hcc.body.congr rfl rfl rfl rfl rfl rfl)
  have : ∃ s, onLru τ (fun s => s.place false c.id) (w.setN c.id { w.node c.id with dirty := false }) =
      (.ok (), ((w.setN c.id { w.node c.id with dirty := false }).setL s)) ∧
      LruIs s (ent ca c.id false + L) := by
    rcases hl with ⟨b, hl⟩ | ⟨hl, hn⟩
    · exact place_run (w := w.setN c.id _) hc hl false
    · exact placeFresh_run (w := w.setN c.id _) hc hl hn false
  obtain ⟨s, h6, h7⟩ := this
  obtain ⟨d, h8, h9, h10⟩ := startDrainer_run (τ := τ) ((w.setN c.id { w.node c.id with dirty := false }).setL s)
  refine ⟨_, ?_, h1.same (w' := ((w.setN c.id { w.node c.id with dirty := false }).setL s).setC d) rfl rfl rfl, h7, ?_⟩
  · unfold markNodeClean
    rw [bind_ok (modN_run w c.id _), bind_ok h6]
    exact h8
  · exact ((Calm.setN τ w c.id _).trans (Calm.lru τ _ s)).trans (Calm.ctl τ _ d h9 h10)

/-- `markNodeToBeDiscarded` -/
theorem markDiscard_run {τ : TreeId} {ca : Bool} {w : World K V} {c : Cell K V} {S} {X : Multiset Id} {L : Multiset (Id × Bool)}
    (h : St w (c ::ₘ S) X) (hz : c.ref.len = 0 → c.ref = .zero)
    (hc : (w.trees τ).cached = ca) {b : Bool} (hl : LruIs w.lru (ent ca c.id b + L)) :
    ∃ w', markNodeToBeDiscarded τ c.id w = (.ok (), w') ∧ St w' ({ c with ref := .zero } ::ₘ S) X ∧
      LruIs w'.lru L ∧ Stale τ w w' (staleAdd c.ref (w.trees τ).stale) := by
  obtain ⟨w2, h2, h3, h4, h5⟩ := placeStale_run (τ := τ) h hz
  have hc2 : (w2.trees τ).cached = ca := by rw [h5.cached]; exact hc
  obtain ⟨s, h6, h7⟩ := drop_run hc2 (x := c.id) (b := b) (L := L) (by rw [h4]; exact hl)
  refine ⟨_, ?_, h3.same (w' := w2.setL s) rfl rfl rfl, h7, h5.calm (Calm.lru τ w2 s)⟩
  unfold markNodeToBeDiscarded
  rw [bind_ok h2]; exact h6

end SM.BT

import Verif.BTree.Ghost

/-!
The assertion `I P w₀ T w ρ R`: in world `w`, reached from `w₀` without touching the disk, tree
`P.τ` has root pointer `ρ`, and heap, cache lists and disk hold what the bundle `R` says; `T` is
all that is stored on disk, for nodes in `R` or for the stale list.
-/

namespace SM.BT

open Spec (at? below above)

variable {K V : Type}

section proj
variable (c : Cell K V) (R S : B K V) (ca d : Bool) (x : Id) (p : Ref × DiskNode K V) (q : Multiset (Ref × DiskNode K V)) (X : Multiset Id)
@[simp] theorem cellB_1 : (cellB c).1 = {c} := rfl
@[simp] theorem cellB_2 : (cellB c).2.1 = 0 := rfl
@[simp] theorem cellB_3 : (cellB c).2.2.1 = 0 := rfl
@[simp] theorem cellB_4 : (cellB c).2.2.2 = 0 := rfl
@[simp] theorem lruB_1 : (lruB ca x d : B K V).1 = 0 := rfl
theorem lruB_2 : (lruB ca x d : B K V).2.1 = {(x, if ca then some d else none)} := rfl
@[simp] theorem lruB_3 : (lruB ca x d : B K V).2.2.1 = 0 := rfl
@[simp] theorem lruB_4 : (lruB ca x d : B K V).2.2.2 = 0 := rfl
@[simp] theorem offB_1 : (offB x : B K V).1 = 0 := rfl
theorem offB_2 : (offB x : B K V).2.1 = {(x, none)} := rfl
@[simp] theorem offB_3 : (offB x : B K V).2.2.1 = 0 := rfl
@[simp] theorem offB_4 : (offB x : B K V).2.2.2 = 0 := rfl
@[simp] theorem pageB_1 : (pageB p).1 = 0 := rfl
@[simp] theorem pageB_2 : (pageB p).2.1 = 0 := rfl
@[simp] theorem pageB_3 : (pageB p).2.2.1 = {p} := rfl
@[simp] theorem pageB_4 : (pageB p).2.2.2 = 0 := rfl
@[simp] theorem pagesB_1 : (pagesB q).1 = 0 := rfl
@[simp] theorem pagesB_2 : (pagesB q).2.1 = 0 := rfl
@[simp] theorem pagesB_3 : (pagesB q).2.2.1 = q := rfl
@[simp] theorem pagesB_4 : (pagesB q).2.2.2 = 0 := rfl
@[simp] theorem slotB_1 : (slotB X : B K V).1 = 0 := rfl
@[simp] theorem slotB_2 : (slotB X : B K V).2.1 = 0 := rfl
@[simp] theorem slotB_3 : (slotB X : B K V).2.2.1 = 0 := rfl
@[simp] theorem slotB_4 : (slotB X : B K V).2.2.2 = X := rfl
@[simp] theorem ownPage_none (e : DiskNode K V) : ownPage none e = 0 := rfl
@[simp] theorem ownPage_some (r : Ref) (e : DiskNode K V) : ownPage (some r) e = pageB (r, e) := rfl
theorem slotB_add (Y : Multiset Id) : (slotB (X + Y) : B K V) = slotB X + slotB Y := by simp [slotB]
theorem pagesB_add (Y : Multiset (Ref × DiskNode K V)) : pagesB (q + Y) = pagesB q + pagesB Y := by simp [pagesB]
theorem pagesB_cons : pagesB (p ::ₘ q) = pageB p + pagesB q := by simp [pagesB, pageB]
end proj

/-- The entries that are in a list. -/
def live (L : Multiset (Id × Option Bool)) : Multiset (Id × Bool) :=
  L.bind fun e => match e.2 with | some d => {(e.1, d)} | none => 0

@[simp] theorem live_zero : live 0 = 0 := rfl
@[simp] theorem live_add (L M : Multiset (Id × Option Bool)) : live (L + M) = live L + live M := by simp [live]
theorem live_lru (ca : Bool) (x : Id) (d : Bool) : live (lruB ca x d : B K V).2.1 = ent ca x d := by
  cases ca <;> simp [live, lruB, ent]
theorem live_off (x : Id) : live (offB x : B K V).2.1 = 0 := by simp [live, offB]

theorem live_fst {L : Multiset (Id × Option Bool)} {x : Id} {d : Bool} (h : (x, d) ∈ live L) : x ∈ L.map Prod.fst := by
  simp only [live, Multiset.mem_bind] at h
  obtain ⟨⟨y, e⟩, h1, h2⟩ := h
  cases e
  · simp at h2
  · simp only [Multiset.mem_singleton, Prod.mk.injEq] at h2
    exact Multiset.mem_map.2 ⟨_, h1, h2.1.symm⟩

/-- Cache entries: of different nodes, and right. -/
structure Cache (w : World K V) (L : Multiset (Id × Option Bool)) : Prop where
  is : LruIs w.lru (live L)
  nodup : (L.map Prod.fst).Nodup
  lt : ∀ e ∈ L, w.Old e.1

/-- All the pages of a tree, and how many calls of `Prune` have failed on it: then the stale list says nothing any more. -/
abbrev Tot (K V : Type) := Multiset (Ref × DiskNode K V) × Nat

@[simp] theorem Tot.add_none (T : Tot K V) : T + ((0 : Multiset (Ref × DiskNode K V)), 0) = T := by
  show (T.1 + 0, T.2 + 0) = T
  simp
theorem Tot.add_more (T : Tot K V) (N M : Multiset (Ref × DiskNode K V)) : T + (N, 0) + (M, 0) = T + (N + M, 0) := by
  show (T.1 + N + M, T.2 + 0 + 0) = (T.1 + (N + M), T.2 + 0)
  rw [add_assoc]

/-- See above. -/
structure I (P : Par K) (w0 : World K V) (T : Tot K V) (w : World K V) (ρ : Option Id)
    (R : B K V) : Prop where
  evo : Quiet P.τ w0 w
  root : (w.trees P.τ).root = ρ
  st : St w R.1 R.2.2.2
  lru : Cache w R.2.1
  stale : ∃ SP, (T.2 = 0 → (((w.trees P.τ).stale : List Ref) : Multiset Ref) = SP.map Prod.fst) ∧ SP + R.2.2.1 = T.1
  nodup : (T.1.map Prod.fst).Nodup
  disk : ∀ p ∈ T.1, w.disk p.1 = some p.2 ∧ p.1.len ≠ 0
  cached : (w.trees P.τ).cached = P.ca
  min : (w.trees P.τ).min = P.min
  max : (w.trees P.τ).max = P.max

section
variable {P : Par K} {w0 : World K V} {T : Tot K V} {w : World K V} {ρ : Option Id}
  {R R' : B K V} {c c' : Cell K V}

theorem Cache.set {w' : World K V} {x : Id} {d e : Option Bool} {L} (h : Cache w ({(x, d)} + L))
    (hn : w.next ≤ w'.next) (hl : LruIs w'.lru (live ({(x, e)} + L))) : Cache w' ({(x, e)} + L) := by
  have h1 := h.nodup; have h2 := h.lt
  simp only [Multiset.singleton_add, Multiset.map_cons, Multiset.mem_cons, forall_eq_or_imp] at h1 h2
  refine ⟨hl, by simpa using h1, ?_⟩
  simp only [Multiset.singleton_add, Multiset.mem_cons, forall_eq_or_imp]
  exact ⟨h2.1.mono hn, fun e he => (h2.2 e he).mono hn⟩

theorem Cache.off {x : Id} {L} (h : Cache w ({(x, none)} + L)) : ∀ d, (x, d) ∉ live L := by
  intro d hd
  have h1 := h.nodup
  simp only [Multiset.singleton_add, Multiset.map_cons, Multiset.nodup_cons] at h1
  exact h1.1 (live_fst hd)

theorem I.eq (h : I P w0 T w ρ R) (e : R = R') : I P w0 T w ρ R' := e ▸ h

/-- Start afresh from the present world. -/
theorem I.rebase (h : I P w0 T w ρ R) : I P w T w ρ R :=
  ⟨.refl _ _, h.root, h.st, h.lru, h.stale, h.nodup, h.disk, h.cached, h.min, h.max⟩

theorem I.trans {w1 : World K V} {T'} {ρ'} (h : I P w0 T w1 ρ R) (g : I P w1 T' w ρ' R') : I P w0 T' w ρ' R' :=
  ⟨h.evo.trans g.evo, g.root, g.st, g.lru, g.stale, g.nodup, g.disk, g.cached, g.min, g.max⟩

theorem I.page (h : I P w0 T w ρ R) {p : Ref × DiskNode K V} (hp : p ∈ R.2.2.1) :
    w.disk p.1 = some p.2 ∧ p.1.len ≠ 0 := by
  obtain ⟨SP, -, h2⟩ := h.stale
  exact h.disk p (h2 ▸ Multiset.mem_add.2 (.inr hp))

theorem I.step {w' : World K V} (h : I P w0 T w ρ R) (hc : Calm P.τ w w') (hst : St w' R'.1 R'.2.2.2)
    (hl : Cache w' R'.2.1) (hp : R'.2.2.1 = R.2.2.1) : I P w0 T w' ρ R' :=
  ⟨h.evo.trans hc.toQuiet, by rw [hc.tree]; exact h.root, hst, hl, by rw [hc.tree, hp]; exact h.stale, h.nodup,
   by rw [hc.disk]; exact h.disk, by rw [hc.tree]; exact h.cached, by rw [hc.tree]; exact h.min,
   by rw [hc.tree]; exact h.max⟩

theorem I.cells (h : I P w0 T w ρ (cellB c + R)) : St w (c ::ₘ R.1) R.2.2.2 := by
  have := h.st
  simpa using this

theorem I.cell (h : I P w0 T w ρ (cellB c + R)) : CellOK w c := h.cells.head

/-- Forget cells and prefix-sum fields that are no longer used. -/
theorem I.forget (h : I P w0 T w ρ (cellB c + R)) : I P w0 T w ρ R :=
  h.step (.refl _ _) (by
    have := h.cells
    exact this.le (Multiset.le_cons_self _ _) (le_refl _)) (by simpa using h.lru) (by simp)

theorem I.forgetSlot {X : Multiset Id} (h : I P w0 T w ρ (slotB X + R)) : I P w0 T w ρ R :=
  h.step (.refl _ _) (by
    have := h.st
    simp only [Prod.fst_add, Prod.snd_add, slotB_1, zero_add, slotB_4] at this
    exact this.le (le_refl _) (Multiset.le_add_left _ _)) (by simpa using h.lru) (by simp)

theorem I.forgetOff {x : Id} (h : I P w0 T w ρ (offB x + R)) : I P w0 T w ρ R :=
  h.step (.refl _ _) (by simpa using h.st) (by
    have := h.lru
    simp only [Prod.snd_add, Prod.fst_add, offB_2, Multiset.singleton_add] at this
    refine ⟨?_, ?_, fun e he => this.lt e (Multiset.mem_cons_of_mem he)⟩
    · have := this.is
      rw [← Multiset.singleton_add] at this
      simpa [live] using this
    · have := this.nodup
      simp only [Multiset.map_cons, Multiset.nodup_cons] at this
      exact this.2) (by simp)

/-- A node struct against a cell. -/
structure NodeIs (ps : Id → PSum) (n : NodeS K V) (c : Cell K V) : Prop where
  tree : n.tree = c.tree
  parent : n.parent = c.parent
  root : n.root = c.root
  ref : n.ref = c.ref
  dirty : n.dirty = c.dirty
  body : BodyIs c.cm n ps c.body

theorem CellOK.node (h : CellOK w c) : NodeIs w.ps (w.node c.id) c :=
  ⟨h.tree, h.parent, h.root, h.ref, h.dirty, h.body⟩

/-- Assign a node struct. -/
theorem I.setN (h : I P w0 T w ρ (cellB c + R)) {n : NodeS K V} (hid : c'.id = c.id)
    (hk : c'.body.kids = c.body.kids) (hn : NodeIs w.ps n c') : I P w0 T (w.setN c.id n) ρ (cellB c' + R) :=
  h.step (Calm.setN _ _ _ _)
    (by simpa using h.cells.setN hid hk hn.tree hn.parent hn.root hn.ref hn.dirty hn.body)
    (by have := h.lru; simp only [Prod.fst_add, Prod.snd_add, cellB_2] at this ⊢; exact ⟨this.is, this.nodup, this.lt⟩) (by simp)

theorem I.modN (h : I P w0 T w ρ (cellB c + R)) {f : NodeS K V → NodeS K V} (c' : Cell K V) (hid : c'.id = c.id)
    (hk : c'.body.kids = c.body.kids) (hn : ∀ n, NodeIs w.ps n c → NodeIs w.ps (f n) c') :
    ∃ w', modN c.id f w = (.ok (), w') ∧ I P w0 T w' ρ (cellB c' + R) :=
  ⟨_, modN_run _ _ _, h.setN hid hk (hn _ h.cell.node)⟩

/-- A new node struct. -/
theorem I.alloc (h : I P w0 T w ρ R) {n : NodeS K V} (c : Cell K V) (hid : c.id = (w.addr n.tree)) (hk : c.body.kids = [])
    (hn : ∀ ps, NodeIs ps n c) :
    ∃ w', alloc n w = (.ok c.id, w') ∧ I P w0 T w' ρ (cellB c + offB c.id + slotB {c.id} + R) := by
  have hno : c.id ∉ R.2.1.map Prod.fst := fun hm => by
    obtain ⟨e, h1, h2⟩ := Multiset.mem_map.1 hm
    exact (h.lru.lt e h1).ne n.tree (h2.trans hid)
  have hn' := hn (upd w.ps (w.addr n.tree) { items := 0, kvIndex := 0, parent := none, left := none, right := none })
  let w' : World K V := { w with
      next := BT.upd w.next n.tree (w.next n.tree + 1)
      node := upd w.node (w.addr n.tree) n
      ps := upd w.ps (w.addr n.tree) { items := 0, kvIndex := 0, parent := none, left := none, right := none } }
  have ht : w.Took w' n.tree := rfl
  refine ⟨w', by rw [hid]; rfl, h.step (Calm.of ht.le rfl rfl rfl rfl rfl rfl) ?_ ?_ (by simp)⟩
  · have := h.st.new (c := c) (w' := w') hid ht
      (fun i hi => by simp [w', upd, hi]) (fun i hi => by simp [w', upd, hi]) hk
      (by
        constructor <;> simp only [w', hid, upd_same]
        · exact hn'.tree
        · exact hn'.parent
        · exact hn'.root
        · exact hn'.ref
        · exact hn'.dirty
        · exact hn'.body)
    rw [← hid] at this
    simpa [Multiset.singleton_add] using this
  · refine ⟨?_, ?_, ?_⟩
    · simp only [Prod.fst_add, Prod.snd_add, cellB_2, slotB_2, zero_add, add_zero, live_add, live_off]
      exact h.lru.is
    · simp only [Prod.fst_add, Prod.snd_add, cellB_2, slotB_2, zero_add, add_zero, offB_2, Multiset.singleton_add,
        Multiset.map_cons, Multiset.nodup_cons]
      exact ⟨hno, h.lru.nodup⟩
    · simp only [Prod.fst_add, Prod.snd_add, cellB_2, slotB_2, zero_add, add_zero, offB_2, Multiset.singleton_add,
        Multiset.mem_cons, forall_eq_or_imp]
      exact ⟨hid ▸ ht.old, fun e he => (h.lru.lt e he).mono ht.le⟩

/-! ### Cache and stale list -/

theorem Cache.lru (h : I P w0 T w ρ R) {x : Id} {d : Bool} {R' : B K V} (e : R = lruB P.ca x d + R') :
    LruIs w.lru (ent P.ca x d + live R'.2.1) := by
  have := h.lru.is
  rw [e] at this
  simpa [live_lru] using this

theorem Cache.offs (h : I P w0 T w ρ R) {x : Id} {R' : B K V} (e : R = offB x + R') :
    LruIs w.lru (live R'.2.1) ∧ ∀ d, (x, d) ∉ live R'.2.1 := by
  have h1 := h.lru
  rw [e] at h1
  refine ⟨by simpa [live_off] using h1.is, ?_⟩
  simp only [Prod.fst_add, Prod.snd_add, offB_2] at h1
  exact h1.off

/-- The cache afterwards, when the entry of one node changed. -/
theorem Cache.upd {w' : World K V} {x : Id} {d e : Option Bool} {L} (h : Cache w ({(x, d)} + L))
    (hn : w.next ≤ w'.next) (hl : LruIs w'.lru (live {(x, e)} + live L)) : Cache w' ({(x, e)} + L) :=
  h.set hn (by rw [live_add]; exact hl)

theorem I.used {x : Id} {d : Bool} (h : I P w0 T w ρ (lruB P.ca x d + R)) :
    ∃ w', markNodeUsed P.τ x w = (.ok (), w') ∧ I P w0 T w' ρ (lruB P.ca x d + R) := by
  obtain ⟨s, h1, h2⟩ := used_run h.cached (Cache.lru h rfl)
  refine ⟨_, h1, h.step (Calm.lru _ _ _) ?_ ?_ rfl⟩
  · exact h.st.same rfl rfl rfl
  · have := h.lru
    simp only [Prod.fst_add, Prod.snd_add, lruB_2] at this ⊢
    exact this.upd (le_refl _) (by rw [← lruB_2 (K := K) (V := V), live_lru]; exact h2)

theorem I.init {x : Id} (h : I P w0 T w ρ (offB x + R)) : initNodeAsEvicted P.τ x w = (.ok (), w) := by
  obtain ⟨h1, h2⟩ := Cache.offs h rfl
  exact init_run h1 h2

theorem I.ctl {f : Ctl → Ctl} (h : I P w0 T w ρ R) (hl : ∀ c, (f c).low = c.low) (hh : ∀ c, (f c).high = c.high) :
    ∃ w', onCtl P.τ f w = (.ok (), w') ∧ I P w0 T w' ρ R := by
  obtain ⟨c, h1, h2, h3⟩ := onCtl_run (τ := P.τ) (w := w) f hl hh
  exact ⟨_, h1, h.step (Calm.ctl _ _ _ h2 h3) (h.st.same rfl rfl rfl) ⟨h.lru.is, h.lru.nodup, h.lru.lt⟩ rfl⟩

theorem I.incHits (h : I P w0 T w ρ R) :
    ∃ w', incCacheHits P.τ w = (.ok (), w') ∧ I P w0 T w' ρ R := h.ctl (fun _ => rfl) (fun _ => rfl)
theorem I.incMisses (h : I P w0 T w ρ R) :
    ∃ w', incCacheMisses P.τ w = (.ok (), w') ∧ I P w0 T w' ρ R := h.ctl (fun _ => rfl) (fun _ => rfl)

/-- A page goes to the stale list. -/
theorem I.stepStale {w' : World K V} {st : Option Ref} {e : DiskNode K V} (h : I P w0 T w ρ R)
    (hp : R.2.2.1 = (ownPage st e).2.2.1 + R'.2.2.1)
    (hc : Stale P.τ w w' (staleAdd (refOf st) (w.trees P.τ).stale)) (hst : St w' R'.1 R'.2.2.2)
    (hl : Cache w' R'.2.1) : I P w0 T w' ρ R' := by
  refine ⟨h.evo.trans hc.toQuiet, by rw [hc.root]; exact h.root, hst, hl, ?_, h.nodup,
   by rw [hc.disk]; exact h.disk, by rw [hc.cached]; exact h.cached, by rw [hc.min]; exact h.min,
   by rw [hc.max]; exact h.max⟩
  obtain ⟨SP, h1, h2⟩ := h.stale
  rw [hc.stale]
  cases st with
  | none =>
    refine ⟨SP, ?_, ?_⟩
    · intro hT; rw [← h1 hT]; simp [staleAdd, refOf, Ref.zero]
    · rw [← h2, hp]; simp
  | some r =>
    simp only [ownPage_some, pageB_3] at hp
    refine ⟨(r, e) ::ₘ SP, ?_, by rw [← h2, hp]; simp [← Multiset.singleton_add]; abel⟩
    have hr : r.len ≠ 0 := (h.disk (r, e) (by rw [← h2, hp]; simp)).2
    intro hT
    have hm : r ∉ (w.trees P.τ).stale := by
      have hn := h.nodup
      rw [← h2, hp, Multiset.map_add, ← h1 hT, Multiset.nodup_add, Multiset.disjoint_left] at hn
      intro hr
      exact hn.2.2 (by simpa using hr) (by simp)
    show ((staleAdd r _ : List Ref) : Multiset Ref) = _
    simp only [staleAdd, hr, if_false, hm, Multiset.map_cons, ← h1 hT, Multiset.cons_coe]

theorem refOf_len {st : Option Ref} {e : DiskNode K V} (h : I P w0 T w ρ (ownPage st e + R)) :
    (refOf st).len = 0 → refOf st = .zero := by
  cases st with
  | none => intro; rfl
  | some r =>
    intro hr
    have := h.page (p := (r, e)) (by simp)
    exact absurd hr this.2

theorem I.markDirty {b : Bool} {st : Option Ref} {e : DiskNode K V} (hr : c.ref = refOf st)
    (h : I P w0 T w ρ (cellB c + lruB P.ca c.id b + ownPage st e + R)) :
    ∃ w', markNodeDirty P.τ c.id w = (.ok (), w') ∧
      I P w0 T w' ρ (cellB { c with ref := .zero, dirty := true } + lruB P.ca c.id true + R) := by
  have hz : c.ref.len = 0 → c.ref = .zero := by
    rw [hr]
    exact refOf_len (h.eq (by abel : _ = ownPage st e + (cellB c + lruB P.ca c.id b + R)))
  have hl := Cache.lru h (x := c.id) (d := b) (R' := cellB c + ownPage st e + R) (by abel)
  have hst : St w (c ::ₘ ((ownPage st e).1 + R.1)) ((ownPage st e).2.2.2 + R.2.2.2) := by
    have := h.st
    simpa [add_assoc] using this
  have e0 : (ownPage st e).1 = 0 ∧ (ownPage st e).2.2.2 = 0 ∧ (ownPage st e).2.1 = 0 := by cases st <;> simp
  rw [e0.1, e0.2.1, zero_add, zero_add] at hst
  obtain ⟨w', h1, h2, h3, h4⟩ := markDirty_run hst hz h.cached (.inl ⟨b, hl⟩)
  refine ⟨w', h1, h.stepStale (st := st) (e := e) (by simp) (hr ▸ h4) (by simpa using h2) ?_⟩
  · have hx := h.lru
    simp only [Prod.fst_add, Prod.snd_add, lruB_2, cellB_2, zero_add, e0.2.2, add_zero] at hx ⊢
    refine hx.upd h4.next ?_
    rw [← lruB_2 (K := K) (V := V), live_lru]
    simpa [e0.2.2] using h3

theorem ownPage_0 (st : Option Ref) (e : DiskNode K V) :
    (ownPage st e).1 = 0 ∧ (ownPage st e).2.2.2 = 0 ∧ (ownPage st e).2.1 = 0 := by cases st <;> simp

/-- A new node. -/
theorem I.markDirtyNew (hr : c.ref = .zero) (h : I P w0 T w ρ (cellB c + offB c.id + R)) :
    ∃ w', markNodeDirty P.τ c.id w = (.ok (), w') ∧
      I P w0 T w' ρ (cellB { c with dirty := true } + lruB P.ca c.id true + R) := by
  obtain ⟨hl, hn⟩ := Cache.offs h (x := c.id) (R' := cellB c + R) (by abel)
  have hst : St w (c ::ₘ R.1) R.2.2.2 := by
    have := h.st
    simpa using this
  obtain ⟨w', h1, h2, h3, h4⟩ := markDirty_run hst (fun _ => hr) h.cached (.inr ⟨hl, hn⟩)
  refine ⟨w', h1, h.stepStale (st := none) (e := (mkDisk P false 0 (.leaf []))) (by simp) (by rw [hr] at h4; exact h4) ?_ ?_⟩
  · rw [← hr] at h2; simpa using h2
  · have hx := h.lru
    simp only [Prod.fst_add, Prod.snd_add, lruB_2, offB_2, cellB_2, zero_add] at hx ⊢
    refine hx.upd h4.next ?_
    rw [← lruB_2 (K := K) (V := V), live_lru]
    simpa using h3

theorem I.markClean (h : I P w0 T w ρ (cellB c + offB c.id + R)) :
    ∃ w', markNodeClean P.τ c.id w = (.ok (), w') ∧
      I P w0 T w' ρ (cellB { c with dirty := false } + lruB P.ca c.id false + R) := by
  obtain ⟨hl, hn⟩ := Cache.offs h (x := c.id) (R' := cellB c + R) (by abel)
  have hst : St w (c ::ₘ R.1) R.2.2.2 := by
    have := h.st
    simpa using this
  obtain ⟨w', h1, h2, h3, h4⟩ := markClean_run hst h.cached (.inr ⟨hl, hn⟩)
  refine ⟨w', h1, h.step h4 (by simpa using h2) ?_ (by simp)⟩
  · have hx := h.lru
    simp only [Prod.fst_add, Prod.snd_add, lruB_2, offB_2, cellB_2, zero_add] at hx ⊢
    refine hx.upd h4.next ?_
    rw [← lruB_2 (K := K) (V := V), live_lru]
    simpa using h3

theorem I.markCleanOld {b : Bool} (h : I P w0 T w ρ (cellB c + lruB P.ca c.id b + R)) :
    ∃ w', markNodeClean P.τ c.id w = (.ok (), w') ∧
      I P w0 T w' ρ (cellB { c with dirty := false } + lruB P.ca c.id false + R) := by
  have hl := Cache.lru h (x := c.id) (d := b) (R' := cellB c + R) (by abel)
  have hst : St w (c ::ₘ R.1) R.2.2.2 := by
    have := h.st
    simpa using this
  obtain ⟨w', h1, h2, h3, h4⟩ := markClean_run hst h.cached (.inl ⟨b, hl⟩)
  refine ⟨w', h1, h.step h4 (by simpa using h2) ?_ (by simp)⟩
  · have hx := h.lru
    simp only [Prod.fst_add, Prod.snd_add, lruB_2, cellB_2, zero_add] at hx ⊢
    refine hx.upd h4.next ?_
    rw [← lruB_2 (K := K) (V := V), live_lru]
    simpa using h3

theorem I.markDiscard {b : Bool} {st : Option Ref} {e : DiskNode K V} (hr : c.ref = refOf st)
    (h : I P w0 T w ρ (cellB c + lruB P.ca c.id b + ownPage st e + R)) :
    ∃ w', markNodeToBeDiscarded P.τ c.id w = (.ok (), w') ∧
      I P w0 T w' ρ (cellB { c with ref := .zero } + offB c.id + R) := by
  have hz : c.ref.len = 0 → c.ref = .zero := by
    rw [hr]
    exact refOf_len (h.eq (by abel : _ = ownPage st e + (cellB c + lruB P.ca c.id b + R)))
  have hl := Cache.lru h (x := c.id) (d := b) (R' := cellB c + ownPage st e + R) (by abel)
  obtain ⟨e1, e2, e3⟩ := ownPage_0 st e
  have hst : St w (c ::ₘ R.1) R.2.2.2 := by
    have := h.st
    simpa [e1, e2] using this
  obtain ⟨w', h1, h2, h3, h4⟩ := markDiscard_run hst hz h.cached hl
  refine ⟨w', h1, h.stepStale (st := st) (e := e) (by simp) (hr ▸ h4) (by simpa using h2) ?_⟩
  · have hx := h.lru
    simp only [Prod.fst_add, Prod.snd_add, lruB_2, offB_2, cellB_2, zero_add, e3, add_zero] at hx ⊢
    refine hx.upd h4.next ?_
    simpa [e3, live] using h3

/-- Assign `tree.root`. -/
theorem I.setRoot (h : I P w0 T w ρ R) (ρ' : Option Id) :
    ∃ w', modT P.τ (fun t => { t with root := ρ' }) w = (.ok (), w') ∧ I P w0 T w' ρ' R := by
  refine ⟨_, modT_run _ _ _, ?_, ?_, h.st.same rfl rfl rfl, ⟨h.lru.is, h.lru.nodup, h.lru.lt⟩, ?_, h.nodup, h.disk, ?_, ?_, ?_⟩
  · refine h.evo.trans ⟨⟨le_refl _, fun σ hσ => ?_, ?_, ?_, ?_, rfl, rfl, rfl, rfl, rfl, rfl⟩, rfl, rfl, rfl, rfl⟩ <;>
      simp [upd, *]
  all_goals simp only [setT_trees, upd_same]
  · exact h.stale
  · exact h.cached
  · exact h.min
  · exact h.max

/-! ### Fields of a node -/

theorem I.same {w' : World K V} (h : I P w0 T w ρ R) (hst : St w' R'.1 R'.2.2.2) (hc : Calm P.τ w w')
    (hl : w'.lru = w.lru) (h2 : R'.2.1 = R.2.1) (h3 : R'.2.2.1 = R.2.2.1) : I P w0 T w' ρ R' :=
  h.step hc hst (by rw [h2]; exact ⟨hl ▸ h.lru.is, h.lru.nodup, fun e he => (h.lru.lt e he).mono hc.next⟩) h3

/-- Take the children out of a non-leaf. -/
theorem I.open {items : Nat} {c0 : Id} {cs : List (K × Id)} {q : Option (List (Id × Nat))}
    (h : I P w0 T w ρ (cellB c + R)) (hb : c.body = .inner items c0 cs q) :
    I P w0 T w ρ (cellB { c with body := .raw true items false (some c0) (innerKv cs) } +
      slotB ((c0 :: cs.map Prod.snd : List Id) : Multiset Id) + R) :=
  h.same (by simpa using h.cells.open hb) (.refl _ _) rfl (by simp) (by simp)

theorem I.close {items : Nat} {c0 : Id} {cs : List (K × Id)}
    (h : I P w0 T w ρ (cellB c + slotB ((c0 :: cs.map Prod.snd : List Id) : Multiset Id) + R))
    (hb : c.body = .raw true items false (some c0) (innerKv cs)) :
    I P w0 T w ρ (cellB { c with body := .inner items c0 cs none } + R) := by
  have hst : St w (c ::ₘ R.1) (((c0 :: cs.map Prod.snd : List Id) : Multiset Id) + R.2.2.2) := by
    have := h.st
    simpa using this
  exact h.same (by simpa using hst.close hb) (.refl _ _) rfl (by simp) (by simp)

theorem I.openLeaf {items : Nat} {l : List (K × V)} (h : I P w0 T w ρ (cellB c + R)) (hb : c.body = .leaf items l) :
    ∃ left, I P w0 T w ρ (cellB { c with body := .raw true items true left (leafKv l) } + R) := by
  obtain ⟨left, h1⟩ := h.cells.openLeaf hb
  exact ⟨left, h.same (by simpa using h1) (.refl _ _) rfl (by simp) (by simp)⟩

theorem I.closeLeaf {items : Nat} {l : List (K × V)} {left : Option Id} (h : I P w0 T w ρ (cellB c + R))
    (hb : c.body = .raw true items true left (leafKv l)) :
    I P w0 T w ρ (cellB { c with body := .leaf items l } + R) :=
  h.same (by simpa using h.cells.closeLeaf hb) (.refl _ _) rfl (by simp) (by simp)

/-- An unloaded node's fields. -/
theorem I.closeUnl {items : Nat} {leaf : Bool} {l : List (K × Val V)} {left : Option Id} (h : I P w0 T w ρ (cellB c + R))
    (hb : c.body = .raw false items leaf left l) :
    I P w0 T w ρ (cellB { c with body := .unl items } + R) := by
  have hc := h.cell
  have hh := hc.body
  rw [hb] at hh
  refine h.same (R' := cellB { c with body := .unl items } + R) ?_ (.refl _ _) rfl (by simp) (by simp)
  have : St w ({ c with body := .unl items } ::ₘ R.1) R.2.2.2 :=
    h.cells.set rfl (by simp [hb, Body.kids]) (fun _ _ => rfl) (fun _ _ => rfl) rfl
      ⟨hc.tree, hc.parent, hc.root, hc.ref, hc.dirty, ⟨hh.1, hh.2.2.1⟩⟩
  simpa using this

theorem I.arrange {items : Nat} {c0 : Id} {cs : List (K × Id)} {q0 : Option (List (Id × Nat))}
    (h : I P w0 T w ρ (cellB c + R)) (hb : c.body = .inner items c0 cs q0)
    {q : List (Id × Nat)} (hq : q.map Prod.fst = c0 :: cs.map Prod.snd) (hi : ∀ p ∈ q, (w.node p.1).items = p.2) :
    ∃ w', arrangePrefixSumTree c.id w = (.ok (), w') ∧
      I P w0 T w' ρ (cellB { c with body := .inner (total q) c0 cs (some q) } + R) := by
  obtain ⟨w', h1, h2, h3, h4, -⟩ := arrange_run P.τ h.cells hb hq hi
  exact ⟨w', h1, h.same (by simpa using h2) h4 h3 (by simp) (by simp)⟩

variable {ld leaf : Bool} {items : Nat} {left : Option Id} {l : List (K × Val V)}

theorem I.kv (h : I P w0 T w ρ (cellB c + R)) (hb : c.body = .raw ld items leaf left l) :
    KvIs c.cm (w.node c.id).kv l := by
  have := h.cell.body; rw [hb] at this; exact this.2.2.2.2

theorem I.kvLen (h : I P w0 T w ρ (cellB c + R)) (hb : c.body = .raw ld items leaf left l) :
    kvLen c.id w = (.ok (l.length : Int), w) := kvLen_run (h.kv hb)

theorem I.kvGet (h : I P w0 T w ρ (cellB c + R)) (hb : c.body = .raw ld items leaf left l) (x : Int) :
    kvGetByIndex c.id x w = (.ok (at? x l), w) := kvGet_run (h.kv hb) x

theorem I.setKv (h : I P w0 T w ρ (cellB c + R)) (hb : c.body = .raw ld items leaf left l) {l' : List (K × Val V)} {t}
    (ht : KvIs c.cm (some t) l') : I P w0 T (w.setN c.id { w.node c.id with kv := some t }) ρ
      (cellB { c with body := .raw ld items leaf left l' } + R) := by
  have hc := h.cell
  have hh := hc.body
  rw [hb] at hh
  exact h.setN rfl (by simp [hb, Body.kids]) ⟨hc.tree, hc.parent, hc.root, hc.ref, hc.dirty,
    ⟨hh.1, hh.2.1, hh.2.2.1, hh.2.2.2.1, ht⟩⟩

theorem I.kvPut {a b : List (K × Val V)} (h : I P w0 T w ρ (cellB c + R))
    (hb : c.body = .raw ld items leaf left (a ++ b)) {k : K} (hk : c.cm.Valid k) (v : Val V)
    (h1 : AllLt c.cm.cmp a k) (h2 : AllGt c.cm.cmp k b) :
    ∃ w', kvPut c.cm.cmp c.id k v w = (.ok true, w') ∧
      I P w0 T w' ρ (cellB { c with body := .raw ld items leaf left (a ++ (k, v) :: b) } + R) := by
  have hkv := h.kv hb
  have hv := AllValid_append.1 hkv.valid
  obtain ⟨t, h3, h4⟩ := kvPut_run hkv hk v (fun p hp => by
    rcases List.mem_append.1 hp with hp | hp
    · exact c.cm.law.eqb_false_of_gt hk (hv.1 p hp) (h1 p hp)
    · exact c.cm.law.eqb_false_of_lt hk (hv.2 p hp) (h2 p hp))
  rw [below_append, above_append, below_eq_self h1, above_eq_self h2, below_eq_nil c.cm.law hv.2 hk h2,
    above_eq_nil c.cm.law hv.1 hk h1, List.append_nil, List.nil_append] at h4
  exact ⟨_, h3, h.setKv hb h4⟩

theorem I.kvPutIgnore {a b : List (K × Val V)} (h : I P w0 T w ρ (cellB c + R))
    (hb : c.body = .raw ld items leaf left (a ++ b)) {k : K} (hk : c.cm.Valid k) (v : Val V)
    (h1 : AllLt c.cm.cmp a k) (h2 : AllGt c.cm.cmp k b) :
    ∃ w', kvPutIgnore c.cm.cmp c.id k v w = (.ok (), w') ∧
      I P w0 T w' ρ (cellB { c with body := .raw ld items leaf left (a ++ (k, v) :: b) } + R) := by
  obtain ⟨w', h3, h4⟩ := h.kvPut hb hk v h1 h2
  exact ⟨w', by simp only [BT.kvPutIgnore, bind_ok (attempt_ok h3)]; rfl, h4⟩

theorem I.kvDel {a b : List (K × Val V)} {p : K × Val V} (h : I P w0 T w ρ (cellB c + R))
    (hb : c.body = .raw ld items leaf left (a ++ p :: b)) {n : Int} (hn : n = a.length) :
    ∃ w', kvDeleteByIndex c.cm.cmp c.id n w = (.ok true, w') ∧
      I P w0 T w' ρ (cellB { c with body := .raw ld items leaf left (a ++ b) } + R) := by
  obtain ⟨t, h1, h2⟩ := kvDel_run (h.kv hb) (n := a.length) (by simp)
  rw [List.eraseIdx_append_of_length_le (Nat.le_refl _), Nat.sub_self, List.eraseIdx_cons_zero] at h2
  subst hn
  exact ⟨_, h1, h.setKv hb h2⟩

/-- Forget any number of things that are no longer used. -/
theorem I.forgets (h : I P w0 T w ρ (R' + R)) (hp : R'.2.2.1 = 0) (hl : live R'.2.1 = 0) : I P w0 T w ρ R := by
  refine h.step (.refl _ _) ?_ ?_ (by simp [hp])
  · exact h.st.le (Multiset.le_add_left _ _) (Multiset.le_add_left _ _)
  · have := h.lru
    simp only [Prod.fst_add, Prod.snd_add] at this
    refine ⟨by simpa [hl] using this.is, ?_, fun e he => this.lt e (Multiset.mem_add.2 (.inr he))⟩
    have := this.nodup
    rw [Multiset.map_add] at this
    exact (Multiset.nodup_add.1 this).2.1

end

end SM.BT

import Verif.Props.Store
import Verif.BTree.Drainer

/-!
Properties of the B+Tree's nodes and of the cache: balance, exact bookkeeping, the drainer, TouchItem sweeps, the dimensions report
(C17, C27, C33, C38, C39, C44, C47).
-/

namespace SM.BT
variable {K V : Type}

theorem Show.using {cfg : TreeId → Par K} {n : Nat} {w : World K V} {s : Api.St K V} {L : List (Ent K V)} {LK : Multiset (Ref × DiskNode K V)} (hS : Show cfg n w s L LK) (v : Env) :
    Show cfg n (w.using v) s L LK :=
  ⟨⟨hS.scene.heap.congr (fun _ _ => rfl) rfl rfl rfl rfl, hS.scene.nodup, fun x hx => (hS.scene.ok x hx).congr rfl⟩, hS.cfg, hS.high, hS.rep, hS.only, hS.lost⟩

end SM.BT

namespace SM.Props

open BT Spec
open Api (OwnCall Leaves Idle Pre Legal)

section
variable {K V : Type} {S : Setup K V} {fuel : Nat} {cs : Calls K V} {t : TreeId} {v : Env} {r : Ref} {l : List (K × V)}

theorem Hist.scene (h : Hist S fuel cs) (hf : ∀ t, (S.cfg t).max + (cs.length + 1) + 2 < fuel) :
    ∃ s L LK, At S fuel cs s ∧ s.sound = true ∧ Show S.cfg cs.length (S.now fuel cs) s L LK ∧ ∀ t, Opened S fuel cs t ↔ ∃ e ∈ L, e.P.τ = t := by
  obtain ⟨s, h1, h2⟩ := h.at
  obtain ⟨L, LK, hS⟩ := h1.inv.shows h2
  refine ⟨s, L, LK, h1, h2, hS, fun t => ?_⟩
  rw [opened_iff h hf h1]
  constructor
  · rintro ⟨m, hm⟩; exact hS.only t m hm
  · rintro ⟨e, he, rfl⟩
    obtain ⟨m, hm, -⟩ := hS.rep e he
    exact ⟨m, hm⟩

theorem Opened.scene (h : Opened S fuel cs t) :
    ∃ s L LK e m, At S fuel cs s ∧ s.sound = true ∧ Show S.cfg cs.length (S.now fuel cs) s L LK ∧ e ∈ L ∧ e.P = S.cfg t ∧ s.maps t = some m ∧ Rep e m := by
  obtain ⟨h0, s, s', m, h1, h2, h3, -⟩ := Hist.call h rfl
  obtain ⟨L, LK, hS⟩ := h1.inv.shows h2
  obtain ⟨e, he, rfl⟩ := hS.only t m h3
  obtain ⟨m', h4, h5⟩ := hS.rep e he
  rw [h3] at h4
  cases h4
  exact ⟨s, L, LK, e, m, h1, h2, hS, he, hS.cfg e he, h3, h5⟩

/-! ### Shape -/

/-- C17: at the end of any history the leaves of an open map all lie at one depth, no node has more keys than allowed, every node but the root has
at least half as many, and the root has one if it is not a leaf. So has what lies at the location the map is stored at. -/
theorem C17_balanced (h : Opened S fuel cs t) :
    (∃ d, Balanced (S.now fuel cs) t (S.cfg t).max d) ∧
    ∀ r l, Stored S fuel cs t r l → ∃ d, OnDisk (S.now fuel cs).disk (S.cfg t).max (if d = 0 then 0 else 1) r d := by
  obtain ⟨s, L, LK, e, m, h1, h2, hS, he, hP, hm, -⟩ := Opened.scene h
  have hb := hS.scene.balanced he
  rw [hP, S.named] at hb
  refine ⟨⟨_, hb⟩, fun r l hs => ?_⟩
  obtain ⟨-, s', m', k1, k2, k3, k4, k5, k6⟩ := hs.at
  obtain ⟨H, d, h3, h4, -⟩ := k1.inv.snaps _ _ k6
  obtain ⟨a1, a2, a3⟩ := h4.occ.split
  have := Dt.onDisk (P := S.cfg t) d (fun p hp => (h4.disk p hp).1) a1 a2 a3
  rw [h4.ref] at this
  exact ⟨H, this⟩

example := (C17_balanced storeHist_open).1

/-- C44: FetchDimensionsReport returns half the maximum number of keys, that number, the number of items and the number of levels of nodes. -/
theorem C44_dimensions (h : Opened S fuel cs t) (hv : v.CanRead) (hl : S.Has fuel (S.now fuel cs) t l) {d : Nat} (hd : Balanced (S.now fuel cs) t (S.cfg t).max d) :
    (S.run fuel (S.now fuel cs) (.dimensions t) v).1 = .ok (.dimensions ⟨(S.cfg t).max / 2, (S.cfg t).max, l.length, d + 1⟩) := by
  have hfu := h.enough t
  rw [List.length_append, List.length_singleton] at hfu
  obtain ⟨s, L, LK, e, m, h1, h2, hS, he, hP, hm, hrep⟩ := Opened.scene h
  have hb := hS.scene.balanced he
  rw [hP, S.named] at hb
  have hH := hS.high e he
  cases hd.unique hb
  have hle := hl.unique (h1.has (fun t => by have := h.enough t; simp at this; omega) h2 hm)
  obtain ⟨L1, L2, rfl⟩ := List.append_of_mem he
  rcases (fetchDimensionsReport_run (hS.using v).scene.focus (by omega : e.H < fuel)).cases with ⟨_, w', e1, rfl, -⟩ | ⟨x, w', e1, h0, -⟩
  · rw [hP, S.named] at e1
    show (reply _ _ _).1 = _
    rw [reply_ok e1, hle, hrep.items]
    rfl
  · exact absurd (Faulty.reading h0) hv.no.not

example : ∃ l d, (sampleSetup.run 60 (sampleSetup.now 60 storeHist) (.dimensions 0) calmEnv).1 = .ok (.dimensions ⟨2, 4, l, d + 1⟩) := by
  obtain ⟨d, hd⟩ := (C17_balanced storeHist_open).1
  obtain ⟨-, s, s', m, h1, h2, h3, h4, -⟩ := storeHist_open.call rfl
  exact ⟨_, d, C44_dimensions storeHist_open calmEnv_works.1 h4 hd⟩

/-! ### The cache -/

/-- C38: at every operation boundary the cache's two lists are doubly linked lists, one of the clean and one of the dirty nodes that are in memory of the
maps sharing the cache, each node once; each node belongs to one map; and the item counts Stats reports are their lengths. -/
theorem C38_cache_exact (h : Hist S fuel cs) (hf : ∀ t, (S.cfg t).max + (cs.length + 1) + 2 < fuel) :
    ∃ l : Bool → List Id,
      (∀ d, (l d).Nodup ∧ Chain (fun i => ((S.now fuel cs).lru.el i).next) ((S.now fuel cs).lru.lst d).head (l d) ∧
        Chain (fun i => ((S.now fuel cs).lru.el i).prev) ((S.now fuel cs).lru.lst d).tail (l d).reverse ∧
        ∀ i, i ∈ l d ↔ ∃ t, Opened S fuel cs t ∧ (S.cfg t).ca = true ∧ Holds (S.now fuel cs) t i ∧ ((S.now fuel cs).node i).loaded = true ∧
          ((S.now fuel cs).node i).dirty = d) ∧
      (∀ t i, Opened S fuel cs t → Holds (S.now fuel cs) t i → ((S.now fuel cs).node i).tree = t) ∧
      stats (S.now fuel cs) = (.ok ⟨(S.now fuel cs).ctl.low, (S.now fuel cs).ctl.high, (l false).length, (l true).length, (S.now fuel cs).ctl.hits,
        (S.now fuel cs).ctl.misses⟩, S.now fuel cs) := by
  obtain ⟨s, L, LK, h1, h2, hS, ho⟩ := Hist.scene h hf
  obtain ⟨l, h3, h4⟩ := hS.scene.lists
  refine ⟨l, fun d => ⟨h3.nodup d, ?_, ?_, fun i => ?_⟩, fun t i ht hi => ?_, ?_⟩
  · rw [(h3.lst d).head]; exact (h3.seg d).chain
  · rw [(h3.lst d).tail]; exact (h3.seg d).back
  · rw [h4]
    constructor
    · rintro ⟨e, he, k1, k2⟩
      refine ⟨e.P.τ, (ho _).2 ⟨e, he, rfl⟩, ?_, k2⟩
      rw [← hS.cfg e he]; exact k1
    · rintro ⟨t, k1, k2, k3⟩
      obtain ⟨e, he, rfl⟩ := (ho t).1 k1
      rw [← hS.cfg e he] at k2
      exact ⟨e, he, k2, k3⟩
  · obtain ⟨e, he, rfl⟩ := (ho t).1 ht
    exact (hS.scene.node he hi).1
  · have e1 : (S.now fuel cs).lru.clean.items = (l false).length := (h3.lst false).items
    have e2 : (S.now fuel cs).lru.dirty.items = (l true).length := (h3.lst true).items
    rw [stats, e1, e2]

example := C38_cache_exact (storeHist_open.last (by simp)).1 (storeHist_enough 1 (by omega))

/-- C27: after Discard none of the map's nodes is on a list of the cache. -/
theorem C27_discard_leaves_cache (h : Hist S fuel (cs ++ [(.discard t, v)])) {i : Id} (hi : ((S.now fuel (cs ++ [(.discard t, v)])).lru.el i).tag ≠ .noLRU) :
    ((S.now fuel (cs ++ [(.discard t, v)])).node i).tree ≠ t := by
  obtain ⟨h0, s, s', m, h1, h2, h3, h4, h5, h6, h7⟩ := h.call rfl
  obtain ⟨L, LK, hS⟩ := h6.inv.shows h7
  obtain ⟨l, k1, k2⟩ := hS.scene.lists
  have : ∃ d, i ∈ l d := by
    cases ht : ((S.now fuel (cs ++ [(.discard t, v)])).lru.el i).tag with
    | noLRU => exact absurd ht hi
    | cleanLRU => exact ⟨false, (k1.tag false i).1 ht⟩
    | dirtyLRU => exact ⟨true, (k1.tag true i).1 ht⟩
  obtain ⟨d, hd⟩ := this
  obtain ⟨e, he, -, hh, -⟩ := (k2 d i).1 hd
  rw [(hS.scene.node he hh).1]
  rintro rfl
  obtain ⟨m', hm', -⟩ := hS.rep e he
  obtain ⟨-, -, -, -, rfl⟩ := h5
  rw [show ((s.set e.P.τ none).forget (m.live + m.old)).maps e.P.τ = none from set_maps_same _ _ _] at hm'
  cases hm'

example : True := by
  obtain ⟨-, s, s', m, h1, h2, hm, -⟩ := storeHist_open.call rfl
  have := @C27_discard_leaves_cache Nat Nat _ _ _ 0 calmEnv ((storeHist_open.last (by simp)).1.snoc h1 (storeHist_enough 1 (by omega))
    (by simp only [Pre, h2, if_true]; exact ⟨⟨m, hm, h1.clear storeHist_clear hm⟩, calmEnv_works.no.1.1, calmEnv_works.no.1.2, calmEnv_works.no.2⟩) trivial)
  trivial

/-- C39: whatever node the drainer has picked, and whatever has happened to it since, its eviction does not panic, leaves the dirty nodes alone, adds
nothing, leaves the picked node off the clean list, and leaves the contents of all maps alone. -/
theorem C39_evict (h : Hist S fuel cs) (hf : ∀ t, (S.cfg t).max + (cs.length + 1) + 2 < fuel) (x : Id) (ho : Opened S fuel cs t) (hl : S.Has fuel (S.now fuel cs) t l) :
    ∃ w', drainerEvict fuel x (S.now fuel cs) = (.ok (), w') ∧ Evicted (S.now fuel cs) w' x ∧ S.Has fuel w' t l := by
  obtain ⟨s, h1, h2⟩ := h.at
  obtain ⟨m, hm⟩ := (opened_iff h hf h1).1 ho
  obtain ⟨w', e1, e2, e3⟩ := evict_lru h1.inv h2 h.enough x
  have := e2.has hf h2 hm
  rw [hl.unique (h1.has h.enough h2 hm)]
  exact ⟨w', e1, e3, this⟩

/-- C39: the drainer picks a clean node as long as there is one and more nodes are cached than the low limit says. Otherwise it ends, and only then. -/
theorem C39_look (h : Hist S fuel cs) :
    (∃ x, drainerLook (S.now fuel cs) = (.ok (some x), S.now fuel cs) ∧ ((S.now fuel cs).lru.el x).tag = .cleanLRU ∧
      (S.now fuel cs).ctl.low < (S.now fuel cs).lru.clean.items + (S.now fuel cs).lru.dirty.items) ∨
    (drainerLook (S.now fuel cs) = (.ok none, { S.now fuel cs with ctl := { (S.now fuel cs).ctl with active := false } }) ∧
      ((S.now fuel cs).lru.clean.items = 0 ∨ (S.now fuel cs).lru.clean.items + (S.now fuel cs).lru.dirty.items ≤ (S.now fuel cs).ctl.low)) := by
  obtain ⟨s, h1, h2⟩ := h.at
  rcases look_run h1.inv h2 with ⟨x, k1, k2, -, k3⟩ | k
  · exact .inl ⟨x, k1, k2, k3⟩
  · exact .inr k

/-- C39: without interference the drainer ends after as many rounds as there are clean nodes, at most; then no clean node is cached, or no more nodes than
the low limit says. The dirty nodes are those there were, and the maps have the same contents. -/
theorem C39_drainer_ends (h : Hist S fuel cs) {n : Nat} (hf : ∀ t, (S.cfg t).max + (cs.length + n) + 2 < fuel) (hn : (S.now fuel cs).lru.clean.items < n)
    (ho : Opened S fuel cs t) (hl : S.Has fuel (S.now fuel cs) t l) :
    ∃ w', drainer fuel n (S.now fuel cs) = (.ok true, w') ∧ w'.ctl = { (S.now fuel cs).ctl with active := false } ∧
      (∀ i, (w'.lru.el i).tag = .dirtyLRU ↔ ((S.now fuel cs).lru.el i).tag = .dirtyLRU) ∧
      (∀ i, (w'.lru.el i).tag = .cleanLRU → ((S.now fuel cs).lru.el i).tag = .cleanLRU) ∧
      (w'.lru.clean.items = 0 ∨ w'.lru.clean.items + w'.lru.dirty.items ≤ w'.ctl.low) ∧ S.Has fuel w' t l := by
  obtain ⟨s, h1, h2⟩ := h.at
  obtain ⟨m, hm⟩ := (opened_iff h (fun t => by have := hf t; omega) h1).1 ho
  obtain ⟨w', e1, e2, e3, e4, -, e5, e6⟩ := drainer_run h2 n cs.length _ h1.inv hf hn
  have := e2.has (S := S) hf h2 hm
  rw [hl.unique (h1.has h.enough h2 hm)]
  exact ⟨w', e1, e3, e4, e5, e6, this⟩

/-! ### TouchItem -/

/-- C33: starting at 0 and feeding back the returned index, TouchItem strictly advances and gets to the number of items, and then returns 0 (it ends before
`n` calls are made, for any `n` above the number of items). Then all nodes are in memory and dirty. Contents are unchanged. -/
theorem C33_sweep (h : Opened S fuel cs t) (hl : S.Has fuel (S.now fuel cs) t l) (hv : v.CanRead) {n : Nat} (hn : l.length < n) :
    ∃ a w', sweep (S.cfg t).cmp t fuel n 0 ((S.now fuel cs).using v) = (.ok a, w') ∧ (0 :: a).Pairwise (· < ·) ∧ (0 :: a).getLast (by simp) = l.length ∧
      (l ≠ [] → ∀ i, Holds w' t i → (w'.node i).loaded = true ∧ (w'.node i).dirty = true) ∧ S.Has fuel w' t l := by
  have hfu := h.enough
  simp only [List.length_append, List.length_singleton] at hfu
  obtain ⟨s, L, LK, e, m, h1, h2, hS, he, hP, hm, hrep⟩ := Opened.scene h
  have hH := hS.high e he
  have hle := hl.unique (h1.has (fun t => by have := hfu t; omega) h2 hm)
  obtain ⟨L1, L2, rfl⟩ := List.append_of_mem he
  have hft := hfu t
  rw [← hP] at hft
  rcases (sweep_all (hS.using v).scene.focus (by omega : e.H + e.P.max < fuel) (by rw [hle, hrep.items] at hn; exact hn)).cases with ⟨a, w', e1, k1, k2, g', k3, k4, k5⟩ | ⟨x, w', e1, h0, -⟩
  · rw [hP, S.named] at e1
    refine ⟨a, w', e1, k1, by rw [k2, hle, hrep.items], ?_⟩
    have hi := h1.inv.using v
    have hm' : s.maps e.P.τ = some m := by rw [hP, S.named]; exact hm
    have hfl : e.g.erase.flat = l := by rw [hle, hrep.items]
    have hflat : g'.erase.flat = l := by rw [k3.erase, hfl]
    by_cases hle0 : l = []
    · refine ⟨fun h => absurd hle0 h, ?_⟩
      obtain ⟨n, rfl⟩ : ∃ k, n = k + 1 := ⟨n - 1, by omega⟩
      rcases (touchItem_run (hS.using v).scene.focus (by omega : e.H + e.P.max < fuel) 0).cases with ⟨j, w1, e2, ⟨-, rfl, rfl⟩ | ⟨x, y, z, -, h3, h4, h5, -⟩⟩ | ⟨x, w1, e2, h0, -⟩
      · rw [hP, S.named] at e2
        have : sweep (S.cfg t).cmp t fuel (n + 1) 0 ((S.now fuel cs).using v) = (.ok [], (S.now fuel cs).using v) := by
          show M.bind _ _ _ = _
          simp only [M.bind, e2]
          rfl
        rw [e1] at this
        cases this
        have := hi.has (S := S) (fuel := fuel) (fun t => by have := hfu t; omega) h2 hm
        rwa [← hle] at this
      · rw [hfl, hle0] at h3
        have := congrArg List.length h3
        simp only [List.length_append, List.length_nil] at this
        omega
      · exact absurd (Faulty.reading h0) hv.no.not
    · have hp := k4 (by rw [hfl]; exact hle0)
      have hst : g'.st = none := by
        cases hst : g'.st with
        | none => rfl
        | some x => exact absurd hp (stored_pages k5.odds (by rw [hst]; rfl))
      obtain ⟨SP, q1, -⟩ := (hS.using v).scene.back k5 k5.I.evo.others
      obtain ⟨m', c1, -, c2⟩ := hi.changed (hS.using v) hm' hrep (by omega) hst k5
      rw [hP, S.named] at c2
      refine ⟨fun _ i hh => ?_, ?_⟩
      · refine (q1.node (e := ⟨e.P, e.H, g', SP, e.fails⟩) (by simp) ?_).2 hp
        show Holds w' e.P.τ i
        rw [hP, S.named]
        exact hh
      · have := c2.has (S := S) hfu h2 (set_maps_same _ _ _)
        rwa [c1.items, hflat] at this
  · exact absurd (Faulty.reading h0) hv.no.not

/-- C33: one call: below the number of items TouchItem advances, not beyond the number of items; from there on it returns 0. -/
theorem C33_touch_item (h : Opened S fuel cs t) (hl : S.Has fuel (S.now fuel cs) t l) (hv : v.CanRead) (k : Nat) :
    (k < l.length → ∃ j, (S.run fuel (S.now fuel cs) (.touchItem t k) v).1 = .ok (.index j) ∧ k < j ∧ j ≤ l.length) ∧
    (l.length ≤ k → (S.run fuel (S.now fuel cs) (.touchItem t k) v).1 = .ok (.index 0)) := by
  have hh := Opened.call (c := .touchItem t k) (v := v) h rfl nofun trivial
  obtain ⟨h0, s, s', m, h1, h2, h3, h4, h5, -⟩ := hh.call rfl
  rw [hl.unique h4]
  obtain ⟨-, ⟨k1, k2, -⟩ | ⟨j, k1, k2, k3, -⟩ | ⟨e, -, k1, -⟩⟩ := h5
  · exact ⟨fun h => by omega, fun _ => k2⟩
  · exact ⟨fun _ => ⟨j, k3, k1, k2⟩, fun h => by omega⟩
  · exact absurd k1 hv.no.not

example : True := by
  obtain ⟨-, s, s', m, -, -, -, h4, -⟩ := storeHist_open.call rfl
  have := C33_sweep storeHist_open h4 calmEnv_works.1 (Nat.lt_succ_self _)
  have := C33_touch_item storeHist_open h4 calmEnv_works.1 7
  have := C39_drainer_ends (storeHist_open.last (by simp)).1 (n := 10) (storeHist_enough 10 (by omega)) (by decide +kernel) storeHist_open h4
  have := C39_evict (storeHist_open.last (by simp)).1 (storeHist_enough 1 (by omega)) (0, 3) storeHist_open h4
  have := C39_look (storeHist_open.last (by simp)).1
  trivial

/-! ### Opening a new map -/

/-- C47: NewBPlusTree panics if the maximum number of keys per node is odd or less than four. -/
theorem C47_new_panics (t : TreeId) (max : Nat) (ca : Bool) (w : World K V) (h : max < 4 ∨ max % 2 = 1) : (newBPlusTree t max ca w).1 = .fatal := by
  unfold newBPlusTree
  rw [if_pos (by omega)]
  rfl

/-- C47: and only then. -/
theorem C47_new_panics_iff (h : Hist S fuel cs) (t : TreeId) (max : Nat) (ca : Bool) : (newBPlusTree t max ca (S.now fuel cs)).1 = .fatal ↔ max < 4 ∨ max % 2 = 1 := by
  refine ⟨fun hp => ?_, C47_new_panics t max ca _⟩
  by_contra hc
  obtain ⟨s, h1, h2⟩ := h.at
  obtain ⟨L, LK, hS⟩ := h1.inv.shows h2
  obtain ⟨r, w', e1, -⟩ := newBPlusTree_run (P := { S.cfg t with τ := t, ca := ca, max := max, four := by omega, even := by omega }) hS.scene.heap
  rw [show newBPlusTree t max ca (S.now fuel cs) = _ from e1] at hp
  cases hp

/-- C47: the new map is empty and passes Validate. -/
theorem C47_new_ok (h : Hist S fuel cs) (hf : ∀ t, (S.cfg t).max + (cs.length + 1) + 2 < fuel) (hno : ¬Opened S fuel cs t) (v : Env) :
    Hist S fuel (cs ++ [(.new t, v)]) ∧ (S.run fuel (S.now fuel cs) (.new t) v).1 = .ok .unit ∧ S.Has fuel (S.now fuel (cs ++ [(.new t, v)])) t [] ∧
    ∀ v' : Env, v'.CanRead → (S.run fuel (S.now fuel (cs ++ [(.new t, v)])) (.op t .validate) v').1 = .ok (.ans (.unit, none)) := by
  obtain ⟨s, h1, h2⟩ := h.at
  have hm : s.maps t = none := by
    cases hm : s.maps t with
    | none => rfl
    | some m => exact absurd ((opened_iff h hf h1).2 ⟨m, hm⟩) hno
  have hp : Pre S.api v.faults s (.new t) := by simp only [Pre, h2, if_true]; exact hm
  have hh := h.snoc h1 hf hp trivial
  obtain ⟨h0, s1, s2, k1, k2, k3, k4, k5, k6⟩ := hh.last (by simp)
  have k4' := k4.2
  simp only [k2, if_true] at k4'
  obtain ⟨-, k7, rfl⟩ := k4'
  have hm2 := set_maps_same s1 t (some ⟨[], 0, 0, none, 0⟩)
  refine ⟨hh, k7, k5.has hh.enough k6 hm2, fun v' hv => answer_ok (cmp := (S.cfg t).cmp) (op := .validate) (k5.inv.op hh.enough k6 hm2 hv (by simp))⟩

example : True := by
  have := C47_new_panics_iff (storeHist_open.last (by simp)).1 1 7 true
  have := C47_new_ok (t := 1) (storeHist_open.last (by simp)).1 (storeHist_enough 1 (by omega)) (by
    intro h
    obtain ⟨s, L, LK, e, m, -, -, hS, he, hP, -⟩ := Opened.scene h
    have h1 := (hS.scene.ok e he).root
    rw [hP, sampleSetup.named] at h1
    have h2 : ((sampleSetup.now 60 storeHist).trees 1).root = none := by decide +kernel
    rw [h2] at h1
    cases h1) calmEnv
  trivial

end
end SM.Props

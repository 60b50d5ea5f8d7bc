import Verif.Props.Shape
import Verif.BTree.Counts
import Verif.BTree.Codec

/-! The order of eviction and the counters of the cache: C50, C51. -/

namespace SM.Props

open BT

/-! ### Least recently used -/

/-- What happens to the nodes of a cache: one is used, one is marked clean or dirty (which puts it on the list if need be), one leaves. -/
inductive CacheEv where
  | used (x : Id)
  | mark (dirty : Bool) (x : Id)
  | leave (x : Id)

/-- What markNodeUsed, markNodeClean / markNodeDirty and markNodeEvicted / markNodeToBeDiscarded do to the lists of the cache. -/
def CacheEv.run (s : LruS) : CacheEv → Option LruS
  | .used x => s.used x
  | .mark d x => s.place d x
  | .leave x => s.drop x

/-- One after the other; `none` is a panic. -/
def runEvs : LruS → List CacheEv → Option LruS
  | s, [] => some s
  | s, e :: es => (e.run s).bind fun s => runEvs s es

/-- For each node in the cache: is it dirty, and when was it last used or marked. -/
abbrev Stamps := Id → Option (Bool × Nat)

/-- What an event at time `n` does to these. -/
def CacheEv.note (n : Nat) (f : Stamps) : CacheEv → Stamps
  | .used x => fun y => if y = x then (f x).map fun p => (p.1, n) else f y
  | .mark d x => fun y => if y = x then some (d, n) else f y
  | .leave x => fun y => if y = x then none else f y

/-- Events at times `n`, `n + 1`, ... -/
def notes : Nat → Stamps → List CacheEv → Stamps
  | _, f, [] => f
  | n, f, e :: es => notes (n + 1) (e.note n f) es

/-- Only nodes in the cache are used, only they leave. -/
def CacheEv.Fits (f : Stamps) : CacheEv → Prop
  | .used x | .leave x => f x ≠ none
  | .mark _ _ => True

def AllFit : Nat → Stamps → List CacheEv → Prop
  | _, _, [] => True
  | n, f, e :: es => e.Fits f ∧ AllFit (n + 1) (e.note n f) es

/-- The lists are in the order of the stamps. -/
structure InOrder (s : LruS) (l : Bool → List Id) (n : Nat) (f : Stamps) : Prop where
  wf : s.WF l
  mem : ∀ d x, x ∈ l d ↔ ∃ k, f x = some (d, k)
  old : ∀ x d k, f x = some (d, k) → k < n
  ord : ∀ d, (l d).Pairwise fun x y => ∀ a b j k, f x = some (a, j) → f y = some (b, k) → j < k

/-- Take a node out, put it at the end. -/
theorem InOrder.next {s s' : LruS} {l : Bool → List Id} {n : Nat} {f : Stamps} (h : InOrder s l n f) {x : Id} {d : Bool} {l' : Bool → List Id} {f' : Stamps} (hw : s'.WF l')
    (hl : ∀ e, l' e = if e = d then (l e).erase x ++ [x] else (l e).erase x) (hx : f' x = some (d, n)) (hf : ∀ y, y ≠ x → f' y = f y) : InOrder s' l' (n + 1) f' where
  wf := hw
  mem e y := by
    rw [hl]
    by_cases hy : y = x
    · subst hy
      rw [hx]
      have hno : ∀ e, y ∉ (l e).erase y := fun e => (h.wf.nodup e).not_mem_erase
      by_cases he : e = d
      · rw [if_pos he]; subst he; simp
      · rw [if_neg he]
        simp only [hno, Option.some.injEq, Prod.mk.injEq, false_iff]
        rintro ⟨k, rfl, -⟩
        exact he rfl
    · rw [hf y hy, ← h.mem e y]
      split <;> simp [List.mem_erase_of_ne hy, hy]
  old y e k hk := by
    by_cases hy : y = x
    · subst hy
      rw [hx, Option.some.injEq, Prod.mk.injEq] at hk
      omega
    · rw [hf y hy] at hk
      have := h.old y e k hk
      omega
  ord e := by
    have h1 : ((l e).erase x).Pairwise fun y z => ∀ a b j k, f' y = some (a, j) → f' z = some (b, k) → j < k := by
      refine ((h.ord e).sublist List.erase_sublist).imp_of_mem fun {y z} hy hz g a b j k => ?_
      rw [hf y (by rintro rfl; exact (h.wf.nodup e).not_mem_erase hy), hf z (by rintro rfl; exact (h.wf.nodup e).not_mem_erase hz)]
      exact g a b j k
    rw [hl]
    split
    · rw [List.pairwise_append]
      refine ⟨h1, by simp, fun y hy z hz a b j k h2 h3 => ?_⟩
      rw [List.mem_singleton] at hz
      subst hz
      rw [hx, Option.some.injEq, Prod.mk.injEq] at h3
      rw [hf y (by rintro rfl; exact (h.wf.nodup e).not_mem_erase hy)] at h2
      have := h.old y a j h2
      omega
    · exact h1

theorem InOrder.step {s : LruS} {l : Bool → List Id} {n : Nat} {f : Stamps} (h : InOrder s l n f) {e : CacheEv} (he : e.Fits f) :
    ∃ s' l', e.run s = some s' ∧ InOrder s' l' (n + 1) (e.note n f) := by
  have hin : ∀ x, f x ≠ none → (s.el x).tag ≠ .noLRU ∧ ∃ d k, f x = some (d, k) ∧ x ∈ l d ∧ x ∉ l (!d) := by
    intro x hx
    obtain ⟨⟨d, k⟩, hd⟩ := Option.ne_none_iff_exists'.1 hx
    have h1 := (h.mem d x).2 ⟨k, hd⟩
    refine ⟨?_, d, k, hd, h1, h.wf.disj' h1⟩
    rw [(h.wf.tag d x).2 h1]
    exact LruS.tagOf_ne d
  cases e with
  | used x =>
    obtain ⟨h1, d, k, h2, h3, h4⟩ := hin x he
    obtain ⟨s', k1, k2, -⟩ := LruS.used_spec h.wf h1
    refine ⟨s', _, k1, h.next (x := x) (d := d) k2 (fun e => ?_) (by simp [CacheEv.note, h2]) (fun y hy => by simp [CacheEv.note, hy])⟩
    rcases LruS.bool_cases d e with rfl | rfl
    · simp [h3]
    · simp [h4, List.erase_of_not_mem h4]
  | mark d x =>
    obtain ⟨s', k1, k2, -⟩ := LruS.place_spec h.wf d x
    refine ⟨s', _, k1, h.next (x := x) (d := d) k2 (fun e => ?_) (by simp [CacheEv.note]) (fun y hy => by simp [CacheEv.note, hy])⟩
    split
    · rename_i he; subst he; rfl
    · rfl
  | leave x =>
    obtain ⟨h1, -⟩ := hin x he
    obtain ⟨s', k1, k2, -⟩ := LruS.drop_spec h.wf h1
    have hne : ∀ d y, y ∈ (l d).erase x → y ≠ x := by rintro d y hy rfl; exact (h.wf.nodup d).not_mem_erase hy
    refine ⟨s', _, k1, k2, fun d y => ?_, fun y d k hk => ?_, fun d => ?_⟩
    · by_cases hy : y = x
      · subst hy
        simp only [CacheEv.note, if_true, reduceCtorEq, exists_false, iff_false]
        exact (h.wf.nodup d).not_mem_erase
      · simp only [CacheEv.note, hy, if_false]
        rw [List.mem_erase_of_ne hy, h.mem]
    · simp only [CacheEv.note] at hk
      split at hk
      · cases hk
      · have := h.old y d k hk; omega
    · refine ((h.ord d).sublist List.erase_sublist).imp_of_mem fun {y z} hy hz g => ?_
      simp only [CacheEv.note, hne d y hy, hne d z hz, if_false]
      exact g

theorem InOrder.steps : ∀ {es : List CacheEv} {s : LruS} {l : Bool → List Id} {n : Nat} {f : Stamps}, InOrder s l n f → AllFit n f es →
    ∃ s' l', runEvs s es = some s' ∧ InOrder s' l' (n + es.length) (notes n f es)
  | [], s, l, _, _, h, _ => ⟨s, l, rfl, h⟩
  | e :: es, s, l, n, f, h, hf => by
      obtain ⟨s1, l1, h1, h2⟩ := h.step hf.1
      obtain ⟨s2, l2, h3, h4⟩ := InOrder.steps h2 hf.2
      exact ⟨s2, l2, by simp [runEvs, h1, h3], by rw [List.length_cons, show n + (es.length + 1) = n + 1 + es.length by omega]; exact h4⟩

theorem InOrder.empty : InOrder LruS.empty (fun _ => []) 0 (fun _ => none) where
  wf := ⟨fun _ => by simp, fun _ h => by simp at h, fun d => by cases d <;> exact ⟨rfl, rfl, rfl⟩, fun _ => trivial, fun d x => by
    cases d <;> simp [LruS.empty, LruS.tagOf], fun _ _ => ⟨rfl, rfl⟩⟩
  mem _ _ := by simp
  old _ _ _ h := by cases h
  ord _ := by simp

/-- **C50.** Whatever happens to the nodes of a cache, from its creation on, the drainer chooses, among the clean ones, the one that was used or marked the
longest time ago; and it stops only if none is clean or the cache has shrunk to the low limit. -/
theorem C50_evicts_least_recently_used {K V : Type} {es : List CacheEv} (hf : AllFit 0 (fun _ => none) es) {s : LruS} (hs : runEvs .empty es = some s) {w : World K V} (hw : w.lru = s) :
    (∀ x, (drainerLook w).1 = .ok (some x) → ∃ n, notes 0 (fun _ => none) es x = some (false, n) ∧
      ∀ y m, notes 0 (fun _ => none) es y = some (false, m) → n ≤ m) ∧
    ((drainerLook w).1 = .ok none → (∀ y m, notes 0 (fun _ => none) es y ≠ some (false, m)) ∨ w.lru.clean.items + w.lru.dirty.items ≤ w.ctl.low) := by
  obtain ⟨s', l, h1, h2⟩ := InOrder.empty.steps hf
  rw [hs, Option.some.injEq] at h1
  subst h1
  have hL : Lst w.lru.clean (l false) := by rw [hw]; exact h2.wf.lst false
  have hnone : l false = [] → ∀ y m, notes 0 (fun _ => none) es y ≠ some (false, m) := fun h y m hy => by
    have := (h2.mem false y).2 ⟨m, hy⟩
    rw [h] at this
    cases this
  unfold drainerLook
  dsimp only
  split
  · rename_i hc
    refine ⟨fun x hx => by simp at hx, fun _ => ?_⟩
    rcases hc with hc | hc
    · rw [hL.items] at hc
      exact .inl (hnone (List.length_eq_zero_iff.1 hc))
    · exact .inr hc
  · rename_i hc
    rcases hl : l false with _ | ⟨z, r⟩
    · rw [hL.items, hl] at hc
      simp at hc
    · have hh : w.lru.clean.head = some z := by rw [hL.head, hl]; rfl
      rw [hh]
      refine ⟨fun x hx => ?_, fun hx => by simp at hx⟩
      simp only [Out.ok.injEq, Option.some.injEq] at hx
      subst hx
      obtain ⟨n, hn⟩ := (h2.mem false z).1 (by rw [hl]; simp)
      refine ⟨n, hn, fun y m hy => ?_⟩
      have hmem := (h2.mem false y).2 ⟨m, hy⟩
      have ho := h2.ord false
      rw [hl] at hmem ho
      rcases List.mem_cons.1 hmem with rfl | hmem
      · rw [hn] at hy
        simp only [Option.some.injEq, Prod.mk.injEq, true_and] at hy
        omega
      · have := (List.pairwise_cons.1 ho).1 y hmem false false n m hn hy
        omega

/-- Nodes 1 and 2 of one map and a node of another one are loaded in this order, 1 is read again, 2 is modified: the node of the other map goes first. -/
example : AllFit 0 (fun _ => none) [.mark false (0, 1), .mark false (0, 2), .mark false (1, 1), .used (0, 1), .mark true (0, 2)] ∧
    ∃ s, runEvs .empty [.mark false (0, 1), .mark false (0, 2), .mark false (1, 1), .used (0, 1), .mark true (0, 2)] = some s ∧ s.clean.head = some (1, 1) := by
  refine ⟨⟨trivial, trivial, trivial, ?_, trivial, trivial⟩, _, rfl, rfl⟩
  simp [CacheEv.Fits, CacheEv.note]

/-! ### What a lookup does to the order -/

/-- The node is the last on one of the lists: of the nodes there, it has been used or marked last. -/
def Newest (s : LruS) (x : Id) : Prop := s.clean.tail = some x ∨ s.dirty.tail = some x

section
variable {K V : Type}

theorem newest_setLst {s : LruS} {d : Bool} {x : Id} {L : LruList} (h : L.tail = some x) : Newest (s.setLst d L) x := by
  unfold Newest LruS.setLst
  cases d
  · exact .inl h
  · exact .inr h

theorem newest_lst {s : LruS} {d : Bool} {x : Id} (h : (s.lst d).tail = some x) : Newest s x := by
  unfold Newest
  cases d
  · exact .inl h
  · exact .inr h

theorem newest_moveToTail {s s' : LruS} {d : Bool} {x : Id} (h : s.moveToTail d x = some s') : Newest s' x := by
  unfold LruS.moveToTail at h
  dsimp only at h
  repeat' split at h
  all_goals first
    | cases h; exact newest_setLst rfl
    | (rename_i ht; cases h; exact newest_lst ht)
    | cases h

theorem newest_used {s s' : LruS} {x : Id} (h : s.used x = some s') : Newest s' x := by
  unfold LruS.used at h
  split at h
  · cases h
  · exact newest_moveToTail h
  · exact newest_moveToTail h

theorem newest_place {s s' : LruS} {d : Bool} {x : Id} (h : s.place d x = some s') : Newest s' x := by
  unfold LruS.place at h
  repeat' split at h
  · unfold LruS.placeFresh at h
    dsimp only at h
    repeat' split at h
    all_goals first
      | cases h; exact newest_setLst rfl
      | cases h
  · exact newest_moveToTail h
  · cases h
  · unfold LruS.append at h
    dsimp only at h
    repeat' split at h
    all_goals first
      | cases h; exact newest_setLst rfl
      | cases h

theorem bind_inv {α β : Type} {m : M K V α} {f : α → M K V β} {w w' : World K V} {b : β} (h : (m >>= f) w = (.ok b, w')) :
    ∃ a w1, m w = (.ok a, w1) ∧ f a w1 = (.ok b, w') := by
  change M.bind m f w = _ at h
  unfold M.bind at h
  rcases hm : m w with ⟨_ | _ | _, w1⟩ <;> rw [hm] at h
  · exact ⟨_, _, rfl, h⟩
  · cases h
  · cases h

theorem keeps_cache {α : Type} {m : M K V α} {τ : TreeId} (h : Counts τ m) {w w' : World K V} {a : α} (hc : (w.trees τ).cached = true) (hm : m w = (.ok a, w')) : (w'.trees τ).cached = true := by
  have := (h.run w hc).1
  rwa [hm] at this

theorem newest_clean {τ : TreeId} {i : Id} {w w' : World K V} {u : Unit} (hc : (w.trees τ).cached = true) (h : markNodeClean τ i w = (.ok u, w')) : Newest w'.lru i := by
  obtain ⟨_, w1, h1, h⟩ := bind_inv h
  cases h1
  obtain ⟨_, w2, h2, h⟩ := bind_inv h
  unfold onLru at h2
  rw [if_pos (by exact hc)] at h2
  split at h2
  · rename_i s hs
    cases h2
    unfold startDrainer onCtl at h
    rw [if_pos (by exact hc)] at h
    cases h
    exact newest_place hs
  · cases h2

theorem newest_visit {cmp : Compare K} {τ : TreeId} {i : Id} {w w' : World K V} {u : Unit} (hc : (w.trees τ).cached = true) (h : visit cmp τ true i w = (.ok u, w')) :
    Newest w'.lru i := by
  obtain ⟨_, w1, h1, h⟩ := bind_inv h
  cases h1
  split at h
  · obtain ⟨_, w2, h2, h⟩ := bind_inv h
    have hc2 := ((Counts.incCacheHits (T := τ) (K := K) (V := V) τ).run w hc).1
    rw [h2] at hc2
    simp only [if_true] at h
    unfold markNodeUsed onLru at h
    rw [if_pos hc2] at h
    split at h
    · rename_i s hs
      cases h
      exact newest_used hs
    · cases h
  · obtain ⟨_, w2, h2, h⟩ := bind_inv h
    have hc2 : (w2.trees τ).cached = true := by
      unfold incCacheMisses onCtl at h2
      rw [if_pos hc] at h2
      cases h2
      exact hc
    obtain ⟨_, w3, h3, h⟩ := bind_inv h
    cases h3
    obtain ⟨d, w4, h4, h⟩ := bind_inv h
    have hc4 : (w4.trees τ).cached = true := by
      unfold getNode at h4
      dsimp only at h4
      repeat' split at h4
      all_goals first
        | cases h4; exact hc2
        | cases h4
    obtain ⟨_, w5, h5, h⟩ := bind_inv h
    have hc5 := keeps_cache (.modN _ _) hc4 h5
    obtain ⟨_, w6, h6, h⟩ := bind_inv h
    have hc6 := keeps_cache .unpack hc5 h6
    obtain ⟨_, w7, h7, h⟩ := bind_inv h
    have hc7 := keeps_cache (.modN _ _) hc6 h7
    obtain ⟨_, w8, h8, h⟩ := bind_inv h
    have hc8 := keeps_cache (.loadMax _ _) hc7 h8
    obtain ⟨_, w9, h9, h⟩ := bind_inv h
    have hc9 := keeps_cache (.loadBody _ _ _ _) hc8 h9
    obtain ⟨_, w10, h10, h⟩ := bind_inv h
    have hc10 := keeps_cache (.modN _ _) hc9 h10
    exact newest_clean hc10 h

theorem newest_keyDescend {cmp : Compare K} {τ : TreeId} {k : K} : ∀ {n : Nat} {i : Id} {s : List Int} {w w' : World K V} {a : Id × List Int}, (w.trees τ).cached = true →
    keyDescend cmp τ true k n i s w = (.ok a, w') → Newest w'.lru a.1
  | 0, _, _, _, _, _, _, h => by cases h
  | n + 1, i, s, w, w', a, hc, h => by
      unfold keyDescend at h
      obtain ⟨_, w1, h1, h⟩ := bind_inv h
      have hn := newest_visit hc h1
      have hc1 := keeps_cache (.visit _ _ _ _) hc h1
      obtain ⟨_, w2, h2, h⟩ := bind_inv h
      cases h2
      split at h
      · cases h
        exact hn
      · obtain ⟨b, w3, h3, h⟩ := bind_inv h
        have hc3 := keeps_cache (.childFor _ _ _) hc1 h3
        split at h
        · exact newest_keyDescend hc3 h
        · exact newest_keyDescend hc3 h

theorem newest_indexDescend {cmp : Compare K} {τ : TreeId} : ∀ {n : Nat} {i : Id} {m : Nat} {s : List Int} {w w' : World K V} {a : Id × Nat × List Int}, (w.trees τ).cached = true →
    indexDescend cmp τ true n i m s w = (.ok a, w') → Newest w'.lru a.1
  | 0, _, _, _, _, _, _, _, h => by cases h
  | n + 1, i, m, s, w, w', a, hc, h => by
      unfold indexDescend at h
      obtain ⟨_, w1, h1, h⟩ := bind_inv h
      have hn := newest_visit hc h1
      have hc1 := keeps_cache (.visit _ _ _ _) hc h1
      obtain ⟨_, w2, h2, h⟩ := bind_inv h
      cases h2
      split at h
      · cases h
        exact hn
      · obtain ⟨b, w3, h3, h⟩ := bind_inv h
        have hc3 := keeps_cache (.deref _) hc1 h3
        obtain ⟨b, w4, h4, h⟩ := bind_inv h
        have hc4 := keeps_cache (.psFind _ _ _) hc3 h4
        obtain ⟨b, w5, h5, h⟩ := bind_inv h
        cases h5
        exact newest_indexDescend hc4 h

end

/-! ### Hits and misses -/

section
variable {K V : Type} {S : Setup K V} {fuel : Nat} {cs : Calls K V} {t : TreeId} {v : Env} {c : Api.Call K V}

theorem Opened.cached (h : Opened S fuel cs t) : ((S.now fuel cs).trees t).cached = (S.cfg t).ca := by
  obtain ⟨s, L, LK, e, m, h1, h2, hS, he, hP, hm, -⟩ := Opened.scene h
  have := (hS.scene.ok e he).cached
  rwa [hP, S.named] at this

theorem rootOf_inv {w w' : World K V} {r : Id} (h : rootOf t w = (.ok r, w')) : w' = w := by
  unfold rootOf at h
  rw [getT_bind] at h
  cases hr : (w.trees t).root <;> rw [hr] at h <;> cases h
  rfl

theorem reply_inv {α : Type} {f : α → Api.Reply K V} {m : M K V α} {w w' : World K V} {b : Api.Reply K V} (h : reply f m w = (.ok b, w')) : ∃ a, m w = (.ok a, w') ∧ f a = b := by
  unfold reply at h
  rcases hm : m w with ⟨_ | _ | _, w1⟩ <;> rw [hm] at h <;> cases h
  exact ⟨_, rfl, rfl⟩

theorem kvOf_inv {i : Id} {w w' : World K V} {tr : LLRB.Tree K (Val V)} (h : kvOf i w = (.ok tr, w')) : w' = w ∧ (w.node i).kv = some tr := by
  unfold kvOf at h
  rw [getN_bind] at h
  cases hr : (w.node i).kv <;> rw [hr] at h <;> cases h
  exact ⟨rfl, rfl⟩

/-- **C50.** When GetByKey finds an item in a map with a cache, the leaf that holds the item is the most recently used node afterwards: it stands last on its
list. -/
theorem C50_getByKey_renews (h : Opened S fuel cs t) (hca : (S.cfg t).ca = true) {k : K} {x : V} {w' : World K V}
    (hr : S.run fuel (S.now fuel cs) (.op t (.getByKey k)) v = (.ok (.ans (.value (some x), none)), w')) :
    ∃ leaf tree, Newest w'.lru leaf ∧ (w'.node leaf).kv = some tree ∧ LLRB.Tree.getByKey (S.cfg t).cmp k tree = (some (.item x), none) := by
  have hcd : (((S.now fuel cs).using v).trees t).cached = true := h.cached.trans hca
  obtain ⟨a, h1, ha⟩ := reply_inv hr
  cases ha
  obtain ⟨y, w1, h2, h3⟩ := bind_inv h1
  cases h3
  obtain ⟨r, w2, h4, h5⟩ := bind_inv h2
  cases rootOf_inv h4
  obtain ⟨⟨leaf, st⟩, w3, h6, h7⟩ := bind_inv h5
  obtain ⟨tr, w4, h8, h9⟩ := bind_inv h7
  obtain ⟨rfl, h10⟩ := kvOf_inv h8
  rcases hg : LLRB.Tree.getByKey (S.cfg t).cmp k tr with ⟨_ | z, _ | e⟩ <;> rw [hg] at h9
  · cases h9
  · cases h9
  · obtain ⟨q, w5, h11, h12⟩ := bind_inv h9
    cases h12
    cases z with
    | node _ => cases h11
    | item z =>
      cases h11
      exact ⟨leaf, tr, newest_keyDescend hcd h6, h10, hg⟩
  · cases h9

theorem getByIndexLoop_mem {A : Type} {i : Int} : ∀ {tr : LLRB.Tree K A} {n : Int} {x : K × A}, LLRB.Tree.getByIndexLoop i tr n = some x → x ∈ tr.toList
  | .nil, n, x, h => by simp [LLRB.Tree.getByIndexLoop] at h
  | .node k a l r c m, n, x, h => by
      unfold LLRB.Tree.getByIndexLoop at h
      simp only [LLRB.Tree.toList, List.mem_append, List.mem_cons]
      repeat' split at h
      all_goals first
        | (cases h; exact .inr (.inl rfl))
        | contradiction
        | exact .inl (getByIndexLoop_mem h)
        | exact .inr (.inr (getByIndexLoop_mem h))

theorem getByIndex_mem {A : Type} {i : Int} {tr : LLRB.Tree K A} {x : K × A} (h : LLRB.Tree.getByIndex i tr = some (some x)) : x ∈ tr.toList := by
  unfold LLRB.Tree.getByIndex at h
  repeat' split at h
  all_goals first
    | (simp at h; done)
    | (rw [Option.map_eq_some_iff] at h; obtain ⟨a, h1, h2⟩ := h; cases h2; exact getByIndexLoop_mem h1)

/-- **C50.** So it is with GetByIndex. -/
theorem C50_getByIndex_renews (h : Opened S fuel cs t) (hca : (S.cfg t).ca = true) {i : Int} {x : K × V} {w' : World K V}
    (hr : S.run fuel (S.now fuel cs) (.op t (.getByIndex i)) v = (.ok (.ans (.item (some x), none)), w')) :
    ∃ leaf tree, Newest w'.lru leaf ∧ (w'.node leaf).kv = some tree ∧ (x.1, Val.item x.2) ∈ tree.toList := by
  have hcd : (((S.now fuel cs).using v).trees t).cached = true := h.cached.trans hca
  obtain ⟨a, h1, ha⟩ := reply_inv hr
  cases ha
  obtain ⟨y, w1, h2, h3⟩ := bind_inv h1
  cases h3
  obtain ⟨b, w2, h4, h5⟩ := bind_inv h2
  obtain ⟨r, w3, h6, h7⟩ := bind_inv h4
  cases rootOf_inv h6
  obtain ⟨n, w4, h8, h9⟩ := bind_inv h7
  cases h8
  cases h9
  split at h5
  · cases h5
  · obtain ⟨r, w3, h6, h7⟩ := bind_inv h5
    cases rootOf_inv h6
    obtain ⟨⟨leaf, j, st⟩, w4, h8, h9⟩ := bind_inv h7
    obtain ⟨o, w5, h10, h11⟩ := bind_inv h9
    obtain ⟨tr, w6, h12, h13⟩ := bind_inv h10
    obtain ⟨rfl, h14⟩ := kvOf_inv h12
    cases hg : LLRB.Tree.getByIndex (j : Int) tr with
    | none => rw [hg] at h13; cases h13
    | some q =>
      rw [hg] at h13
      cases h13
      cases o with
      | none => obtain ⟨_, _, h, _⟩ := bind_inv h11; cases h
      | some kv =>
        obtain ⟨_, _, h15, h16⟩ := bind_inv h11
        cases h15
        obtain ⟨z, _, h17, h18⟩ := bind_inv h16
        cases h18
        obtain ⟨k, _ | a⟩ := kv
        · cases h17
          exact ⟨leaf, tr, newest_indexDescend hcd h8, h14, getByIndex_mem hg⟩
        · cases h17

/-- As `Counts`, but the map may lose its cache (as Discard makes it). -/
structure _root_.SM.BT.CountsOut (τ : TreeId) {α : Type} (m : M K V α) : Prop where
  run : ∀ w, (w.trees τ).cached = true → Tally w (m w).2

theorem _root_.SM.BT.CountsOut.bind {α β : Type} {m : M K V α} {f : α → M K V β} {τ : TreeId} (h : Counts τ m) (g : ∀ a, CountsOut τ (f a)) : CountsOut τ (m >>= f) := by
  refine ⟨fun w hw => ?_⟩
  show Tally w (M.bind m f w).2
  have := h.run w hw
  unfold M.bind
  rcases hm : m w with ⟨_ | _ | _, w'⟩ <;> rw [hm] at this <;> simp only at this ⊢
  · exact this.2.trans ((g _).run w' this.1)
  · exact this.2
  · exact this.2

theorem _root_.SM.BT.CountsOut.discard (cmp : Compare K) (τ : TreeId) (n : Nat) : CountsOut τ (BT.discard cmp τ n : M K V Unit) := by
  unfold BT.discard
  refine .bind (.rootOf τ) fun r => .bind (.attempt (.discardNode cmp τ n r)) fun _ => .bind (.pruneWhileLocked τ) fun _ => ⟨fun w _ => ?_⟩
  exact ⟨Nat.le_refl _, 0, rfl, rfl⟩

/-- **C51.** A map with a cache is open: a call on it, other than Validate, FetchLayoutReport and Dump, adds to the cache's count of misses exactly the number
of times it calls GetNode, whether it succeeds or not, and never lowers the count of hits. -/
theorem C51_misses_count_reads (h : Opened S fuel cs t) (hca : (S.cfg t).ca = true) (hc : c.on = some t) (hv : c ≠ .op t .validate) (hl : c ≠ .layout t) (hd : ∀ cb, c ≠ .dump t cb) :
    (S.now fuel cs).ctl.hits ≤ (S.run fuel (S.now fuel cs) c v).2.ctl.hits ∧
    ∃ n, (S.run fuel (S.now fuel cs) c v).2.env.gets = v.gets + n ∧ (S.run fuel (S.now fuel cs) c v).2.ctl.misses = (S.now fuel cs).ctl.misses + n := by
  have hcd : (((S.now fuel cs).using v).trees t).cached = true := h.cached.trans hca
  have key : Tally ((S.now fuel cs).using v) (S.run fuel (S.now fuel cs) c v).2 := by
    cases c <;> simp only [Api.Call.on, Option.some.injEq, reduceCtorEq] at hc <;> subst hc <;> unfold Setup.run exec <;> rw [reply_world]
    case op o => exact ((Counts.step _ _ _ o (fun h => hv (by rw [h]))).run _ hcd).2
    case flush => exact ((Counts.flush _ _ _ _).run _ hcd).2
    case purge => exact ((Counts.purge _ _ _).run _ hcd).2
    case touch => exact ((Counts.touch _ _ _).run _ hcd).2
    case touchItem => exact ((Counts.touchItem _ _ _ _).run _ hcd).2
    case prune => exact ((Counts.prune _).run _ hcd).2
    case layout => exact absurd rfl hl
    case dump cb => exact absurd rfl (hd cb)
    case dimensions => exact ((Counts.fetchDimensionsReport _ _ _).run _ hcd).2
    case location => exact ((Counts.fetchLocation _).run _ hcd).2
    case discard t =>
      exact (CountsOut.discard _ _ _).run _ hcd
  exact ⟨key.hits, key.misses⟩

/-- **C51.** Validate, FetchLayoutReport, Dump, Flush, Purge, Prune, FetchLocation, the opening of maps and evictions count nothing, whatever the state. -/
theorem C51_uncounted {w : World K V} (hc : c = .op t .validate ∨ c = .layout t ∨ (∃ p, c = .flush t p) ∨ (∃ p, c = .purge t p) ∨ c = .prune t ∨ c = .location t ∨ c = .new t ∨ (∃ r, c = .old t r) ∨
      (∃ x, c = .evict x) ∨ (∃ cb, c = .dump t cb) ∨ ∃ a b, c = .limits a b) :
    (S.run fuel w c v).2.ctl.hits = w.ctl.hits ∧ (S.run fuel w c v).2.ctl.misses = w.ctl.misses := by
  have hw : ∀ {α : Type} {m : M K V α}, Mute m → (m (w.using v)).2.ctl.hits = w.ctl.hits ∧ (m (w.using v)).2.ctl.misses = w.ctl.misses := fun h => h.run (w.using v)
  unfold Setup.run
  rcases hc with rfl | rfl | ⟨p, rfl⟩ | ⟨p, rfl⟩ | rfl | rfl | rfl | ⟨r, rfl⟩ | ⟨x, rfl⟩ | ⟨cb, rfl⟩ | ⟨a, b, rfl⟩ <;> unfold exec <;> rw [reply_world]
  · refine hw ?_
    unfold step validate
    mute
  · exact hw (.fetchLayoutReport _ _ _)
  · exact hw (.flush _ _ _ _)
  · exact hw (.purge _ _ _)
  · exact hw (.prune _)
  · exact hw (.fetchLocation _)
  · exact hw (.newBPlusTree _ _ _)
  · exact hw (.oldBPlusTree _ _ _ _)
  · exact hw (.drainerEvict _ _)
  · exact hw (.dump _ _ _ _)
  · unfold updateLimits
    dsimp only
    split <;> exact ⟨rfl, rfl⟩

/-- **C51.** Len counts exactly one: a hit if the map's root is in memory, a miss if it has to be fetched. -/
theorem C51_len_counts_one (h : Opened S fuel cs t) (hca : (S.cfg t).ca = true) :
    (S.run fuel (S.now fuel cs) (.op t .len) v).2.ctl.hits + (S.run fuel (S.now fuel cs) (.op t .len) v).2.ctl.misses =
      (S.now fuel cs).ctl.hits + (S.now fuel cs).ctl.misses + 1 := by
  have hcd : (((S.now fuel cs).using v).trees t).cached = true := h.cached.trans hca
  obtain ⟨s, L, LK, e, m, h1, h2, hS, he, hP, hm, -⟩ := Opened.scene h
  obtain ⟨r, hr⟩ : ∃ r, (((S.now fuel cs).using v).trees t).root = some r := by
    have := (hS.scene.ok e he).root
    rw [hP, S.named] at this
    exact ⟨_, this⟩
  unfold Setup.run exec
  rw [reply_world]
  show _ = ((S.now fuel cs).using v).ctl.hits + ((S.now fuel cs).using v).ctl.misses + 1
  generalize (S.now fuel cs).using v = w at *
  have hmute : ∀ {α : Type} {m : M K V α} (w1 : World K V), Mute m → w1.ctl.hits + w1.ctl.misses = w.ctl.hits + w.ctl.misses + 1 →
      (m w1).2.ctl.hits + (m w1).2.ctl.misses = w.ctl.hits + w.ctl.misses + 1 := fun w1 hm he => by rw [(hm.run w1).1, (hm.run w1).2]; exact he
  have hroot : rootOf t w = (.ok r, w) := by unfold rootOf; rw [getT_bind, hr]; rfl
  simp only [step, len, bind_assoc]
  rw [bind_ok hroot]
  simp only [visit, bind_assoc, getN_bind]
  split
  · have e : incCacheHits t w = (.ok (), { w with ctl := { w.ctl with hits := w.ctl.hits + 1 } }) := by unfold incCacheHits onCtl; rw [if_pos hcd]
    rw [bind_assoc, bind_ok e]
    refine hmute _ (by mute) ?_
    show w.ctl.hits + 1 + w.ctl.misses = _
    omega
  · have e : incCacheMisses t w = (.ok (), { w with ctl := { w.ctl with misses := w.ctl.misses + 1 } }) := by unfold incCacheMisses onCtl; rw [if_pos hcd]
    rw [bind_assoc, bind_ok e]
    refine hmute _ (by mute) ?_
    show w.ctl.hits + (w.ctl.misses + 1) = _
    omega

/-- Reads with misses, reads that fail, a Discard: on the sample history. -/
example := fun v => C51_misses_count_reads (v := v) (c := .op 0 (.getByKey 50)) storeHist_open rfl rfl (by simp) (by simp)
example := fun v => C51_misses_count_reads (v := v) (c := .discard 0) storeHist_open rfl rfl (by simp) (by simp)
example := fun v => C51_len_counts_one (v := v) storeHist_open rfl

end

/-- A map with one item. -/
def oneItem : Calls Nat Nat := [(.new 0, calmEnv), (.op 0 (.put 10 1), calmEnv)]

theorem oneItem_open : Opened sampleSetup 60 oneItem 0 := by
  refine hist_mild (t := 0) (cs := [(.op 0 (.put 10 1), calmEnv), (.location 0, calmEnv)]) (fun x hx => ?_) (fun t => ?_)
  · simp only [List.mem_cons, List.not_mem_nil, or_false] at hx
    rcases hx with rfl | rfl
    · exact ⟨⟨rfl, by show 10 < 1000; omega⟩, .of_noFault calmEnv_works.no⟩
    · exact ⟨rfl, .of_noFault calmEnv_works.no⟩
  · show 4 + 3 + 2 < 60
    omega

/-- The lookups find it. -/
example := C50_getByKey_renews (v := calmEnv) (k := 10) (x := 1) oneItem_open rfl rfl
example := C50_getByIndex_renews (v := calmEnv) (i := 0) (x := (10, 1)) oneItem_open rfl rfl

end SM.Props

import Verif.Props.Shape
import Verif.BTree.Within

/-!
What failing callbacks and rejected keys do to the B+Tree and its cache: the claims C10, C28, C35, C41 and C42 are false. Shown by concrete
histories; beside them the parts that hold.
-/

namespace SM.BT
variable {K V : Type}

/-- A cache whose limit is kept, or is being restored. -/
def World.Bounded (w : World K V) : Prop :=
  w.lru.clean.items = 0 ∨ w.lru.clean.items + w.lru.dirty.items ≤ w.ctl.high ∨ w.ctl.active = true

theorem Within.bounded {w w' : World K V} (h : Within w w') (hb : w.Bounded) : w'.Bounded := by
  unfold World.Bounded at *
  rcases h with ⟨h1, h2, h3, h4⟩ | h | h
  · rw [h1, h2, h3, h4]; exact hb
  · exact .inr (.inr h)
  · exact .inr (.inl h)

section
variable {P : Par K} {H : Nat} {w0 w : World K V} {T : Tot K V} {R : B K V}

/-- `Discard`, whatever fails: the only error is that of DiscardNode; without one, if reading works, all is discarded. -/
theorem discard_any {g : Gt K V H} (hr : Rest P w0 T R g w) (hT : T.2 = 0) {fuel : Nat} (hf : H < fuel) :
    (∃ w' : World K V, discard P.cmp P.τ fuel w = (.ok (), w') ∧
      ((∀ n, w.env.getFails n = false) → (∀ n, w.env.unpackFails n = false) → ∀ SP, SP + R.2.2.1 = T.1 → ∀ p ∈ SP, w'.disk p.1 = none)) ∨
    ∃ w' : World K V, discard P.cmp P.τ fuel w = (.err .discardNode, w') ∧ ∃ n, w.env.discardFails n = true := by
  unfold discard
  rw [bind_ok hr.root]
  rcases (discardNode_run g hf hr.rebase.I hr.odds hr.ord).cases with ⟨a, w1, e1, h1⟩ | ⟨e, w1, e1, h1, X, h2⟩
  · replace h1 := (h1.forgetSlot : I P w T w1 (some g.id) R)
    rw [bind_ok (attempt_ok e1)]
    obtain ⟨SP, s1, s2⟩ := h1.stale
    replace s1 := s1 hT
    rcases (prune_run h1 hT).cases with ⟨a, w2, e2, l, hl, e3, h2⟩ | ⟨e, w2, e2, rfl, ⟨n, h⟩, -⟩
    · have e2' : pruneWhileLocked P.τ w1 = (.ok a, w2) := e2
      rw [bind_ok e2']
      refine .inl ⟨_, modT_run _ _ _, fun _ _ SP' hSP p hp => ?_⟩
      obtain rfl : SP' = SP := add_right_cancel (hSP.trans s2.symm)
      have hm : p.1 ∈ (w1.trees P.τ).stale := by
        rw [← Multiset.mem_coe, s1]
        exact Multiset.mem_map_of_mem _ hp
      rw [e3]
      show (dropped w1 l 0).disk p.1 = none
      simp only [dropped, if_pos (hl.mem_iff.2 hm)]
    · have e2' : pruneWhileLocked P.τ w1 = (.err .discardNode, w2) := e2
      rw [bind_err e2']
      rw [h1.evo.disF] at h
      exact .inr ⟨_, rfl, n, h⟩
  · replace h2 : I P w T w1 (some g.id) (X + (slotB {g.id} + R)) := h2
    rw [bind_ok (attempt_err e1)]
    have hno : ¬((∀ n, w.env.getFails n = false) ∧ ∀ n, w.env.unpackFails n = false) := by
      rintro ⟨k1, k2⟩
      rcases h1 with ⟨-, n, h⟩ | ⟨-, n, h⟩
      · rw [k1] at h; cases h
      · rw [k2] at h; cases h
    rcases (prune_run h2 hT).cases with ⟨a, w2, e2, -⟩ | ⟨e, w2, e2, rfl, ⟨n, h⟩, -⟩
    · have e2' : pruneWhileLocked P.τ w1 = (.ok a, w2) := e2
      rw [bind_ok e2']
      exact .inl ⟨_, modT_run _ _ _, fun k1 k2 => absurd ⟨k1, k2⟩ hno⟩
    · have e2' : pruneWhileLocked P.τ w1 = (.err .discardNode, w2) := e2
      rw [bind_err e2']
      rw [h2.evo.disF] at h
      exact .inr ⟨_, rfl, n, h⟩

end

end SM.BT

namespace SM.Props

open BT Spec
open Api (OwnCall Leaves Idle Pre Legal)

section
variable {K V : Type} {S : Setup K V} {fuel : Nat} {cs : Calls K V} {t : TreeId} {v : Env} {r : Ref} {l : List (K × V)}

/-- GetNode fails from its `n`-th call on (counting from 0). -/
def noReadEnv (n : Nat) : Env := { calmEnv with getFails := fun k => decide (n ≤ k) }

/-- The item a call returned; `none` if it did not return normally. -/
def itemOf : Out (Api.Reply K V) → Option (Option (K × V))
  | .ok (.ans (.item kv, none)) => some kv
  | _ => none

/-- The flag and the error a call returned together. -/
def doneOf : Out (Api.Reply K V) → Option (Bool × Option Err)
  | .ok (.ans (.done b, e)) => some (b, e)
  | _ => none

/-- The value a call returned; `none` if it did not return normally. -/
def valueOf : Out (Api.Reply K V) → Option (Option V)
  | .ok (.ans (.value x, none)) => some x
  | _ => none

/-- The call panicked. -/
def isFatal : Out (Api.Reply K V) → Bool
  | .fatal => true
  | _ => false

/-! ### Discard -/

/-- The sample history, with no node left in memory. -/
def purgedHist : Calls Nat Nat := storeHist ++ [(.purge 0 true, calmEnv)]

theorem purgedHist_open : Opened sampleSetup 60 purgedHist 0 := by
  unfold Opened purgedHist
  rw [List.append_assoc]
  exact storeHist_then (by simp only [List.cons_append, List.nil_append, List.mem_cons, List.not_mem_nil, or_false, forall_eq_or_imp, forall_eq]; exact ⟨⟨rfl, trivial⟩, rfl, trivial⟩) (by simp)

theorem purgedHist_clear : sampleSetup.Clear 60 purgedHist 0 := by
  refine (purgedHist_open.last (by simp)).1.clear fun x hx => ?_
  rcases List.mem_append.1 hx with hx | hx
  · exact storeHist_mild x hx
  · rw [List.mem_singleton] at hx
    subst hx
    trivial

/-- C28 is false: GetNode fails during Discard, Discard reports success, and the map's storage is still in use. -/
theorem C28_discard_hides_failure :
    ∃ (S : Setup Nat Nat) (fuel : Nat) (cs : Calls Nat Nat) (t : TreeId) (v : Env) (r : Ref), Opened S fuel cs t ∧
      (S.run fuel (S.now fuel cs) (.location t) calmEnv).1 = .ok (.loc r) ∧
      v.getFails 1 = true ∧ (S.run fuel (S.now fuel cs) (.discard t) v).2.env.gets = 2 ∧
      isOk (S.run fuel (S.now fuel cs) (.discard t) v).1 = true ∧
      ((S.run fuel (S.now fuel cs) (.discard t) v).2.disk r).isSome = true := by
  refine ⟨sampleSetup, 60, purgedHist, 0, noReadEnv 1, ⟨3, 200, 49⟩, purgedHist_open, ?_, rfl, by decide +kernel, by decide +kernel, by decide +kernel⟩
  obtain ⟨r, hr⟩ := locOf_some (show (locOf (sampleSetup.run 60 (sampleSetup.now 60 purgedHist) (.location 0) calmEnv).1).isSome = true by decide +kernel)
  have h2 : locOf (sampleSetup.run 60 (sampleSetup.now 60 purgedHist) (.location 0) calmEnv).1 = some ⟨3, 200, 49⟩ := by decide +kernel
  rw [hr] at h2
  cases h2
  exact hr

/-- C28, the part that holds: Discard fails only with DiscardNode's error. If it reports success and all nodes could be read, then everything has been
released: what the stored contents consist of, and what Prune would have released. Missing: nodes that cannot be read (`C28_discard_hides_failure`). -/
theorem C28_discard_partial (h : Opened S fuel cs t) (hT : S.Clear fuel cs t) (v : Env) :
    ((S.run fuel (S.now fuel cs) (.discard t) v).1 = .ok .unit ∧ (v.CanRead →
      (∀ r l, Stored S fuel cs t r l → ∀ x, Leads (S.now fuel cs).disk r x → (S.run fuel (S.now fuel cs) (.discard t) v).2.disk x = none) ∧
      ∀ v' : Env, v'.Works → ∀ x ∈ (S.see fuel (S.now fuel cs) (.prune t) v').gone, (S.run fuel (S.now fuel cs) (.discard t) v).2.disk x = none)) ∨
    ((S.run fuel (S.now fuel cs) (.discard t) v).1 = .err .discardNode ∧ ∃ n, v.discardFails n = true) := by
  have hfu := h.enough t
  rw [List.length_append, List.length_singleton] at hfu
  obtain ⟨h0, s, s', m, h1, h2, h3, h4, -⟩ := Hist.call h rfl
  obtain ⟨L, LK, hS⟩ := (h1.inv.using v).shows h2
  obtain ⟨a, e, b, rfl, rfl, q4, q5, q6⟩ := hS.split h3
  have hH := hS.high e (by simp)
  simp only [Setup.run, exec]
  rw [← q5]
  rcases discard_any (fuel := fuel) hS.scene.focus (q4.fails ▸ h1.clear hT h3) (by omega) with ⟨w', e1, k⟩ | ⟨w', e1, k⟩
  · rw [reply_ok e1]
    refine .inl ⟨rfl, fun hv => ?_⟩
    have k' := k hv.1 hv.2 (e.SP + e.pages) (by rw [add_assoc])
    have hD : ∀ x, x ∈ m.live ∨ x ∈ m.old → w'.disk x = none := by
      intro x hx
      rw [q4.live, q4.old, or_comm, ← Multiset.mem_add, ← Multiset.map_add] at hx
      obtain ⟨p, hp, rfl⟩ := Multiset.mem_map.1 hx
      exact k' p hp
    refine ⟨fun r l hst x hx => hD x (.inl ?_), fun v' hv' x hx => hD x (.inr ?_)⟩
    · have hsv := h1.saved h0.enough h2 h3 hst.loc hst.ne
      exact (h1.inv.leads (h1.sane.saved _ m r h3 hsv) x).2 hx
    · rw [← Multiset.mem_coe, (h1.frees h0.enough h2 h3 (h1.clear hT h3) hv').1] at hx
      exact hx
  · rw [reply_err e1]
    exact .inr ⟨rfl, k⟩

example := C28_discard_partial purgedHist_open purgedHist_clear (noReadEnv 1)
example := C28_discard_partial purgedHist_open purgedHist_clear { calmEnv with discardFails := fun n => n == 2 }

/-! ### Keys that are rejected -/

/-- C10 is false: on an empty B+Tree a key that the compare function rejects is stored, without an error. -/
theorem C10_btree_rejected_key_stored :
    ∃ (S : Setup Nat Nat) (fuel : Nat) (cs : Calls Nat Nat) (t : TreeId) (k x : Nat), Opened S fuel cs t ∧ S.Has fuel (S.now fuel cs) t [] ∧ ¬(S.cfg t).Valid k ∧
      (∀ k', ∃ e, (S.cfg t).cmp k k' = .error e) ∧ doneOf (S.run fuel (S.now fuel cs) (.op t (.put k x)) calmEnv).1 = some (true, none) ∧
      itemOf (S.run fuel (S.now fuel (cs ++ [(.op t (.put k x), calmEnv)])) (.op t (.getByIndex 0)) calmEnv).1 = some (some (k, x)) ∧
      (errOf (S.run fuel (S.now fuel (cs ++ [(.op t (.put k x), calmEnv)])) (.op t (.getByKey 1)) calmEnv).1).isSome = true := by
  have ho : Opened sampleSetup 60 [(.new 0, calmEnv)] 0 := by
    refine hist_mild (cs := [(.location 0, calmEnv)]) (fun x hx => ?_) (fun t => by show 4 + 2 + 2 < 60; omega)
    simp only [List.mem_singleton] at hx
    subst hx
    exact ⟨rfl, trivial⟩
  refine ⟨sampleSetup, 60, [(.new 0, calmEnv)], 0, 5000, 7, ho, ?_, by show ¬5000 < 1000; omega, fun b => ⟨_, by simp [sampleSetup, Sample.cmp]; rfl⟩, by decide +kernel,
    by decide +kernel, by decide +kernel⟩
  obtain ⟨-, -, -, m, -, -, -, h4, -⟩ := Hist.call ho rfl
  have h5 := (h4 calmEnv calmEnv_works.1).1
  have h6 : countOf (sampleSetup.run 60 (sampleSetup.now 60 [(.new 0, calmEnv)]) (.op 0 .len) calmEnv).1 = some 0 := by decide +kernel
  rw [h5] at h6
  have : m.items = [] := by
    simp only [countOf, Option.some.injEq] at h6
    exact List.eq_nil_of_length_eq_zero (by omega)
  rw [← this]
  exact h4

/-- C10, the part that holds for the B+Tree: on a non-empty map Put of a rejected key returns an error of the compare function and stores nothing. Missing: the
empty map, where the claim is false (`C10_btree_rejected_key_stored`). -/
theorem C10_btree_rejected_key_partial {k : K} {x : V} (h : Hist S fuel (cs ++ [(.op t (.put k x), v)])) (hv : v.CanRead) (hk : ¬(S.cfg t).Valid k)
    (hl : S.Has fuel (S.now fuel cs) t l) (hne : l ≠ []) :
    (∃ e k', (S.cfg t).cmp k k' = .error e ∧ ((S.run fuel (S.now fuel cs) (.op t (.put k x)) v).1 = .err e ∨
      ∃ a, (S.run fuel (S.now fuel cs) (.op t (.put k x)) v).1 = .ok (.ans (a, some e)))) ∧
    S.Has fuel (S.now fuel (cs ++ [(.op t (.put k x), v)])) t l := by
  obtain ⟨l', h1, h2⟩ := C48_btree_compare_error h hv rfl hk
  obtain rfl := h1.unique hl
  exact h2 hne

/-! ### The drainer -/

theorem look_head {w : World K V} {x : Id} (h1 : w.lru.clean.items ≠ 0) (h2 : w.ctl.low < w.lru.clean.items + w.lru.dirty.items) (h3 : w.lru.clean.head = some x) :
    drainerLook w = (.ok (some x), w) := by
  unfold drainerLook
  dsimp only
  rw [if_neg (by omega), h3]

theorem drainer_round {w : World K V} {x : Id} {f n : Nat} (h1 : drainerLook w = (.ok (some x), w)) (h2 : (drainerEvict f x w).1 = .ok ()) :
    drainer f (n + 1) w = drainer f n (drainerEvict f x w).2 := by
  conv_lhs => unfold drainer
  rw [bind_ok h1]
  show (drainerEvict f x >>= fun _ => drainer f n) w = _
  rw [bind_ok (Prod.ext h2 rfl)]

theorem drainer_stuck {w : World K V} {x : Id} (h1 : drainerLook w = (.ok (some x), w)) (h2 : (w.node x).loaded = false) (f : Nat) :
    ∀ n, (drainer (f + 1) n w).1 = .ok false
  | 0 => rfl
  | n + 1 => by
      have he : drainerEvict (f + 1) x w = (.ok (), w) := by
        unfold drainerEvict
        split
        · rfl
        · unfold purgeNode
          rw [bind_ok (show getN x w = (.ok (w.node x), w) from rfl)]
          simp [h2]
      unfold drainer
      rw [bind_ok h1]
      show ((drainerEvict (f + 1) x >>= fun _ => drainer (f + 1) n) w).1 = _
      rw [bind_ok he]
      exact drainer_stuck h1 h2 f n

/-- C41 is false: after a Discard during which GetNode failed, and which reported success, the active drainer runs forever: however many rounds it makes,
it has not ended, and after the first it evicts nothing. -/
theorem C41_drainer_livelock :
    ∃ (S : Setup Nat Nat) (fuel : Nat) (cs : Calls Nat Nat) (t : TreeId) (v : Env), Opened S fuel cs t ∧ isOk (S.run fuel (S.now fuel cs) (.discard t) v).1 = true ∧
      (S.run fuel (S.now fuel cs) (.discard t) v).2.ctl.active = true ∧ ∀ n, (drainer fuel n (S.run fuel (S.now fuel cs) (.discard t) v).2).1 = .ok false := by
  refine ⟨sampleSetup, 60, purgedHist, 0, noReadEnv 1, purgedHist_open, by decide +kernel, by decide +kernel, fun n => ?_⟩
  cases n with
  | zero => rfl
  | succ n =>
    have h1 := look_head (w := (sampleSetup.run 60 (sampleSetup.now 60 purgedHist) (.discard 0) (noReadEnv 1)).2) (x := (0, 8)) (by decide +kernel) (by decide +kernel) (by decide +kernel)
    have h2 := look_head (w := (drainerEvict 60 (0, 8) (sampleSetup.run 60 (sampleSetup.now 60 purgedHist) (.discard 0) (noReadEnv 1)).2).2) (x := (0, 8)) (by decide +kernel) (by decide +kernel) (by decide +kernel)
    have h3 : (drainerEvict 60 (0, 8) (sampleSetup.run 60 (sampleSetup.now 60 purgedHist) (.discard 0) (noReadEnv 1)).2).1 = .ok () := by decide +kernel
    rw [drainer_round h1 h3]
    exact drainer_stuck h2 (by decide +kernel) 59 n

/-- C41, the part that holds: after every history, whatever node was picked earlier: if it is still clean, at least one clean node is evicted, and no node is
added to the cache; and if the drainer does not stop, the node it picks is a clean one. Missing: states after a Discard during which reading failed
(`C41_drainer_livelock`), and after failed deletions. -/
theorem C41_drainer_progress_partial (h : Hist S fuel cs) :
    (∀ x, ((S.now fuel cs).lru.el x).tag = .cleanLRU → ∃ w', drainerEvict fuel x (S.now fuel cs) = (.ok (), w') ∧ w'.lru.clean.items < (S.now fuel cs).lru.clean.items ∧
      w'.lru.dirty.items = (S.now fuel cs).lru.dirty.items) ∧
    ∀ x w', drainerLook (S.now fuel cs) = (.ok (some x), w') → w' = S.now fuel cs ∧ ((S.now fuel cs).lru.el x).tag = .cleanLRU := by
  obtain ⟨s, h1, h2⟩ := h.at
  refine ⟨fun x hx => ?_, fun x w' hx => ?_⟩
  · obtain ⟨w', e1, -, e3⟩ := evict_lru h1.inv h2 h.enough x
    exact ⟨w', e1, e3.fewer hx, e3.same⟩
  · rcases look_run h1.inv h2 with ⟨y, k1, k2, -⟩ | ⟨k, -⟩ <;> rw [hx] at *
    · cases k1; exact ⟨rfl, k2⟩
    · cases k

example : (∃ x, ((sampleSetup.now 60 storeHist).lru.el x).tag = .cleanLRU) ∧ Hist sampleSetup 60 storeHist :=
  ⟨⟨(0, 8), by decide +kernel⟩, (storeHist_open.last (by simp)).1⟩

/-! ### The limit of the cache -/

/-- Eight items are put into a map with limits 0 and 4, written, and one more is put. -/
def limitHist : Calls Nat Nat :=
  (.new 0, calmEnv) :: ([(.limits 0 4, calmEnv)] ++ (List.range 8).map (fun k => (.op 0 (.put (10 * k) k), calmEnv)) ++ [(.flush 0 false, putEnv 1), (.op 0 (.put 80 8), calmEnv)])

theorem limitHist_hist : Hist sampleSetup 60 limitHist := by
  refine hist_own (fun x hx => ?_) (fun t => by show 4 + 12 + 2 < 60; omega)
  simp only [List.mem_append, List.mem_map, List.mem_range, List.mem_cons, List.not_mem_nil, or_false] at hx
  rcases hx with (rfl | ⟨k, hk, rfl⟩) | rfl | rfl
  · exact ⟨by first | rfl | trivial, calmEnv_works⟩
  · exact ⟨⟨rfl, by show 10 * k < 1000; omega⟩, calmEnv_works⟩
  · exact ⟨rfl, calmEnv_works⟩
  · exact ⟨⟨rfl, by show 80 < 1000; omega⟩, calmEnv_works⟩

/-- C42 is false: marking nodes dirty brings the cache above its limit, and no drainer is started. -/
theorem C42_limit_not_kept : ∃ (S : Setup Nat Nat) (fuel : Nat) (cs : Calls Nat Nat), Hist S fuel cs ∧ ¬(S.now fuel cs).Bounded :=
  ⟨sampleSetup, 60, limitHist, limitHist_hist, by unfold World.Bounded; decide +kernel⟩

/-- The calls that keep the limit: those that neither change a map nor drop nodes from memory. -/
def KeepsLimit : Api.Call K V → Prop
  | .op _ op => Tame.Looks op
  | .flush _ p => p = false
  | .dimensions _ | .location _ | .dump _ _ | .old _ _ | .limits _ _ => True
  | _ => False

/-- C42, the part that holds. In every state whatever, the calls that neither change a map nor drop nodes from memory keep the limit: they start a drainer when nodes
they read or write exceed it; UpdateLimits starts one whenever the new limit is exceeded; the drainer ends only within the limits; and after every history its
evictions keep them. Missing: the calls that mark nodes dirty, for which the claim is false (`C42_limit_not_kept`), and Purge, Flush with purge, Discard and
the layout report. -/
theorem C42_limit_partial (S : Setup K V) (fuel : Nat) :
    (∀ (w : World K V) c v, KeepsLimit c → w.Bounded → (S.run fuel w c v).2.Bounded) ∧
    (∀ (w : World K V) a b v, (S.run fuel w (.limits a b) v).2.Bounded) ∧
    (∀ w w' : World K V, drainerLook w = (.ok none, w') → w.ctl.low ≤ w.ctl.high → w.lru.clean.head.isSome = true → w'.Bounded) ∧
    ∀ cs x v, Hist S fuel cs → (S.now fuel cs).Bounded → (S.run fuel (S.now fuel cs) (.evict x) v).2.Bounded := by
  have hu : ∀ (w : World K V) (v : Env), w.Bounded → (w.using v).Bounded := fun _ _ h => h
  have hlim : ∀ (w : World K V) a b v, (S.run fuel w (.limits a b) v).2.Bounded := fun w a b v => by
    simp only [Setup.run, exec]
    rw [reply_world]
    rcases updateLimits_within a b (w.using v) with h | h | h
    exacts [.inl h, .inr (.inr h), .inr (.inl h)]
  refine ⟨fun w c v hc hb => ?_, hlim, fun w w' h hlo hhd => ?_, fun cs x v h hb => ?_⟩
  · have go : ∀ {α : Type} (f : α → Api.Reply K V) {m : M K V α}, Tame m → (reply f m (w.using v)).2.Bounded := fun f m hm => by
      rw [reply_world]
      exact (hm.run _).bounded (hu w v hb)
    cases c <;> first | exact hc.elim | exact hlim _ _ _ _ | simp only [Setup.run, exec]
    · exact go _ (Tame.step _ _ _ _ hc)
    · obtain rfl := hc
      exact go _ (Tame.flush _ _ _)
    · exact go _ (Tame.fetchDimensionsReport _ _ _)
    · exact go _ (Tame.fetchLocation _)
    · exact go _ (Tame.dump _ _ _ _)
    · exact go _ (Tame.oldBPlusTree _ _ _ _)
  · unfold drainerLook at h
    dsimp only at h
    split at h
    · rename_i h1
      cases h
      rcases h1 with h1 | h1
      · exact .inl h1
      · exact .inr (.inl (le_trans h1 hlo))
    · split at h
      · rename_i h1
        rw [h1] at hhd
        cases hhd
      · cases h
  · obtain ⟨s, h1, h2⟩ := h.at
    obtain ⟨w', e1, -, e3⟩ := evict_lru (h1.inv.using v) h2 h.enough x
    simp only [Setup.run, exec]
    rw [reply_world, e1]
    have i1 : w'.lru.clean.items ≤ (S.now fuel cs).lru.clean.items := e3.items
    have i2 : w'.lru.dirty.items = (S.now fuel cs).lru.dirty.items := e3.same
    have i3 : w'.ctl = (S.now fuel cs).ctl := e3.ctl
    unfold World.Bounded at *
    dsimp only
    rw [i2, i3]
    rcases hb with hb | hb | hb
    · exact .inl (by omega)
    · exact .inr (.inl (by omega))
    · exact .inr (.inr hb)

example : (sampleSetup.now 60 storeHist).Bounded := by unfold World.Bounded; decide +kernel
example : (sampleSetup.now 60 storeHist).lru.clean.items ≠ 0 := by decide +kernel

/-! ### Deletions that fail while rebalancing -/

/-- Twenty items, written and no longer in memory. -/
def twentyHist : Calls Nat Nat := (.new 0, calmEnv) :: ((List.range 20).map (fun k => (.op 0 (.put (10 * k) k), calmEnv)) ++ [(.flush 0 true, putEnv 1)])

theorem twentyHist_then {ds : Calls Nat Nat} (hd : ∀ x ∈ ds, OwnCall (sampleSetup.api 0) 0 x.1 ∧ Api.Mild x.2.faults x.1) (hl : ds.length ≤ 10) : Hist sampleSetup 60 (twentyHist ++ ds) := by
  refine hist_mild (cs := (List.range 20).map (fun k => (.op 0 (.put (10 * k) k), calmEnv)) ++ [(.flush 0 true, putEnv 1)] ++ ds) (fun x hx => ?_) (fun t => ?_)
  · simp only [List.mem_append, List.mem_map, List.mem_range, List.mem_cons, List.not_mem_nil, or_false] at hx
    rcases hx with (⟨k, hk, rfl⟩ | rfl) | hx
    · exact ⟨⟨rfl, by show 10 * k < 1000; omega⟩, .of_noFault calmEnv_works.no⟩
    · exact ⟨rfl, .of_noFault (putEnv_works 1).no⟩
    · exact hd x hx
  · simp only [sampleSetup, List.length_cons, List.length_map, List.length_append, List.length_range, List.length_nil]; omega

theorem twentyHist_open : Opened sampleSetup 60 twentyHist 0 :=
  twentyHist_then (by simp only [List.mem_singleton, forall_eq]; exact ⟨rfl, trivial⟩) (by simp)

/-- The calls after `twentyHist`: a DeleteByKey of key 50 that cannot read a sibling, and a Flush. -/
def lossCalls : Calls Nat Nat := [(.op 0 (.deleteByKey 50), noReadEnv 4), (.flush 0 true, putEnv 2)]

/-- C35 is false: DeleteByKey of one key returns an error because a sibling could not be read; the next Flush succeeds; then another key is gone, though
it was there right after the failed deletion. -/
theorem C35_failed_delete_loses_item :
    ∃ (S : Setup Nat Nat) (fuel : Nat) (cs : Calls Nat Nat) (t : TreeId) (k k' x' : Nat) (v v' : Env), Opened S fuel cs t ∧ k ≠ k' ∧
      doneOf (S.run fuel (S.now fuel cs) (.op t (.deleteByKey k)) v).1 = some (true, some .getNode) ∧
      valueOf (S.run fuel (S.now fuel (cs ++ [(.op t (.deleteByKey k), v)])) (.op t (.getByKey k')) calmEnv).1 = some (some x') ∧
      isOk (S.run fuel (S.now fuel (cs ++ [(.op t (.deleteByKey k), v)])) (.flush t true) v').1 = true ∧
      valueOf (S.run fuel (S.now fuel (cs ++ [(.op t (.deleteByKey k), v), (.flush t true, v')])) (.op t (.getByKey k')) calmEnv).1 = some none :=
  ⟨sampleSetup, 60, twentyHist, 0, 50, 40, 4, noReadEnv 4, putEnv 2, twentyHist_open, by omega, by decide +kernel, by decide +kernel, by decide +kernel, by decide +kernel⟩

/-- C16 is false: after the same calls, in which only GetNode failed, GetByIndex of an index below Len panics. -/
theorem C16_btree_panics_after_failed_delete :
    ∃ (S : Setup Nat Nat) (fuel : Nat) (cs ds : Calls Nat Nat) (t : TreeId) (i n : Int), Opened S fuel cs t ∧
      (∀ x ∈ ds, x.1.on = some t ∧ ∀ m, x.2.unpackFails m = false ∧ x.2.discardFails m = false) ∧
      countOf (S.run fuel (S.now fuel (cs ++ ds)) (.op t .len) calmEnv).1 = some n ∧ 0 ≤ i ∧ i < n ∧
      isFatal (S.run fuel (S.now fuel (cs ++ ds)) (.op t (.getByIndex i)) calmEnv).1 = true :=
  ⟨sampleSetup, 60, twentyHist, lossCalls, 0, 4, 19, twentyHist_open,
    by simp only [lossCalls, List.mem_cons, List.not_mem_nil, or_false, forall_eq_or_imp, forall_eq]; exact ⟨⟨rfl, fun _ => ⟨rfl, rfl⟩⟩, rfl, fun _ => ⟨rfl, rfl⟩⟩,
    by decide +kernel, by omega, by omega, by decide +kernel⟩

/-- C35, the part that holds: if DeleteByKey returns false and an error, whatever failed, nothing has been lost, not even the addressed item; and the history may
go on, so that all theorems about histories apply. Missing: DeleteByKey returning true and an error (`C35_failed_delete_loses_item`), and DeleteByIndex. -/
theorem C35_failed_delete_partial {k : K} {e : Err} (h : Opened S fuel cs t) (hl : S.Has fuel (S.now fuel cs) t l) (he : (S.run fuel (S.now fuel cs) (.op t (.deleteByKey k)) v).1 = .err e) :
    Hist S fuel (cs ++ [(.op t (.deleteByKey k), v)]) ∧ S.Has fuel (S.now fuel (cs ++ [(.op t (.deleteByKey k), v)])) t l := by
  obtain ⟨h0, s, -, m, h1, h2, h3, h4, -⟩ := Hist.call h rfl
  obtain rfl := hl.unique h4
  have hf : ∀ t, (S.cfg t).max + (cs.length + 1) + 2 < fuel := fun t => by have := h.enough t; simpa using this
  obtain ⟨s', k1, k2⟩ := h1.one (v := v) (c := .op t (.deleteByKey k)) (fun t => by have := hf t; simp; omega) (by simp only [Pre, h2, if_true]; exact ⟨m, h3⟩)
  have hh : Hist S fuel (cs ++ [(.op t (.deleteByKey k), v)]) := by
    refine ⟨fun t => by have := hf t; simp; omega, k2.legal, ?_⟩
    rw [trace_append]
    refine h0.intact.snoc ?_
    rintro ⟨e', -, h5⟩
    have h6 : (Out.err e : Out (Api.Reply K V)) = .ok (.ans (.done true, some e')) := he.symm.trans h5
    cases h6
  refine ⟨hh, ?_⟩
  have k3 := k1.2
  simp only [h2, if_true] at k3
  obtain ⟨m', k4, k5⟩ := k3
  rw [h3, Option.some.injEq] at k4
  subst k4
  have hs' : s'.sound = true := k2.steps.intact rfl hh.intact
  have he' : (S.see fuel (S.now fuel cs) (.op t (.deleteByKey k)) v).out = .err e := he
  obtain ⟨-, ⟨q1, ⟨q2, rfl⟩ | ⟨-, m', q2, rfl⟩⟩ | ⟨e', -, -, -, rfl⟩ | ⟨e', -, ⟨-, q2⟩ | ⟨q1, -⟩, -⟩⟩ := k5
  · exact k2.has hh.enough hs' h3
  · have : (stepE (S.cfg t).cmp m.items (.deleteByKey k)).2 = m.items := by
      rcases q1 with ⟨a, q1, -⟩ | ⟨e', -, q1, -⟩
      · rw [he'] at q1; cases q1
      · revert q1
        show (stepE (S.cfg t).cmp m.items (.deleteByKey k)).1 = none → _
        unfold stepE
        split
        · split
          · exact fun _ => rfl
          · exact fun h => by cases h
        · exact fun h => by cases h
    rw [← this, show (stepE (S.cfg t).cmp m.items (.deleteByKey k)).2 = m'.items from q2.items.symm]
    exact k2.has hh.enough hs' (Api.set_same _ _ _)
  · exact k2.has hh.enough hs' h3
  · exact q2.elim
  · rw [he'] at q1; cases q1

example : errOf (sampleSetup.run 60 (sampleSetup.now 60 twentyHist) (.op 0 (.deleteByKey 50)) (noReadEnv 1)).1 = some .getNode ∧ Opened sampleSetup 60 twentyHist 0 :=
  ⟨by decide +kernel, twentyHist_open⟩

end
end SM.Props

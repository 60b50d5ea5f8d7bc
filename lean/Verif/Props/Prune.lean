import Verif.Props.Faults

/-!
C56: Prune with DiscardNode failing.
-/

namespace SM.Props

open BT Spec
open Api (OwnCall Leaves Idle Pre Legal)

section
variable {K V : Type} {S : Setup K V} {fuel : Nat} {cs : Calls K V} {t : TreeId} {v : Env} {r : Ref} {l : List (K × V)}

/-- **C56.** A Prune that does not succeed reports DiscardNode's error, and DiscardNode did fail. Of the locations that a Prune without failures would have
discarded some are discarded, not all; nothing else stored has changed. All that can be said about histories can be said about this one (`Hist`): the map and
all others are open, with the contents they had, at the locations they had, and those that were stored are. -/
theorem C56_failing_prune (h : Opened S fuel cs t) (hT : S.Clear fuel cs t) (hf : ∀ t, (S.cfg t).max + (cs.length + 2) + 2 < fuel) (v : Env)
    (he : (S.run fuel (S.now fuel cs) (.prune t) v).1 ≠ .ok .unit) :
    (S.run fuel (S.now fuel cs) (.prune t) v).1 = .err .discardNode ∧ (∃ n, v.discardFails n = true) ∧
    (∀ v' : Env, v'.Works → ∃ left, left ≠ [] ∧ ((S.see fuel (S.now fuel cs) (.prune t) v).gone ++ left).Perm (S.see fuel (S.now fuel cs) (.prune t) v').gone) ∧
    (∀ x, (x ∈ (S.see fuel (S.now fuel cs) (.prune t) v).gone → (S.now fuel (cs ++ [(.prune t, v)])).disk x = none) ∧
      (x ∉ (S.see fuel (S.now fuel cs) (.prune t) v).gone → ∀ d, (S.now fuel cs).disk x = some d → (S.now fuel (cs ++ [(.prune t, v)])).disk x = some d)) ∧
    Hist S fuel (cs ++ [(.prune t, v)]) ∧
    ∀ t', Opened S fuel cs t' → Opened S fuel (cs ++ [(.prune t, v)]) t' ∧
      (∀ l, S.Has fuel (S.now fuel (cs ++ [(.prune t, v)])) t' l ↔ S.Has fuel (S.now fuel cs) t' l) ∧
      (∀ v', (S.run fuel (S.now fuel (cs ++ [(.prune t, v)])) (.location t') v').1 = (S.run fuel (S.now fuel cs) (.location t') v').1) ∧
      ∀ r l, Stored S fuel cs t' r l → Stored S fuel (cs ++ [(.prune t, v)]) t' r l := by
  obtain ⟨h0, s, s0, m, h1, h2, h3, -⟩ := Hist.call h rfl
  have hp : Pre S.api v.faults s (.prune t) := by simp only [Pre, h2, if_true]; exact ⟨m, h3, h1.clear hT h3⟩
  obtain ⟨s', a1, a2⟩ := h1.one (v := v) (c := .prune t) (fun t => by have := hf t; simp; omega) hp
  obtain ⟨-, ⟨b, -⟩ | ⟨b1, b2, -, left, b3, b4, rfl⟩⟩ := a1.on h2 rfl h3
  · exact absurd b he
  have hh : Hist S fuel (cs ++ [(.prune t, v)]) := by
    refine ⟨fun t => by have := hf t; simp; omega, a2.legal, ?_⟩
    have hi := h0.intact
    rw [trace_append]
    obtain ⟨a, b, c1, c2, c3⟩ := hi
    refine ⟨a, b ++ _, by rw [c1, List.append_assoc], c2, fun x hx => ?_⟩
    rcases List.mem_append.1 hx with hx | hx
    · exact c3 x hx
    · obtain rfl := List.mem_singleton.1 hx
      exact id
  have hs' := a2.steps.intact rfl hh.intact
  refine ⟨b1, b2, fun v' hv' => ⟨left.toList, fun h => b4 (by rw [← Multiset.coe_toList left, h]; rfl), ?_⟩, fun x => ?_, hh, fun t' ht' => ?_⟩
  · rw [← Multiset.coe_eq_coe, (h1.frees h0.enough h2 h3 (h1.clear hT h3) hv').1, ← b3, ← Multiset.coe_add, Multiset.coe_toList]
  · rw [Setup.now, Setup.now, after_one]
    exact h1.inv.drops h0.enough hp x
  · obtain ⟨m0, hm0⟩ := (opened_iff h0 (fun t => by have := hf t; omega) h1).1 ht'
    obtain ⟨m', hm', e1, e2⟩ : ∃ m', ((s.set t (some { m with old := left, fails := 1 })).forget
        ((S.see fuel (S.now fuel cs) (.prune t) v).gone : Multiset Ref)).maps t' = some m' ∧ m'.items = m0.items ∧ m'.saved = m0.saved := by
      by_cases ht : t' = t
      · subst ht
        rw [h3, Option.some.injEq] at hm0
        subst hm0
        exact ⟨_, Api.set_same _ _ _, rfl, rfl⟩
      · exact ⟨m0, by rw [← hm0]; exact Api.set_other _ ht _, rfl, rfl⟩
    have ho := (opened_iff hh (fun t => by have := hf t; simp; omega) a2).2 ⟨m', hm'⟩
    have k1 := h1.has h0.enough h2 hm0
    have k2 := a2.has hh.enough hs' hm'
    rw [e1] at k2
    have k3 : ∀ v', (S.run fuel (S.now fuel (cs ++ [(.prune t, v)])) (.location t') v').1 = (S.run fuel (S.now fuel cs) (.location t') v').1 := by
      intro v'
      rw [h1.loc h0.enough h2 hm0, a2.loc hh.enough hs' hm', e2]
    refine ⟨ho, fun l => ⟨fun hl => by rwa [hl.unique k2], fun hl => by rwa [hl.unique k1]⟩, k3, fun r l hst => ?_⟩
    exact ⟨ho, (k3 calmEnv).trans hst.loc, hst.ne, by rwa [k1.unique hst.has] at k2⟩

/-- DiscardNode fails when it is called the second time. -/
def pruneEnv : Env := { calmEnv with discardFails := fun n => n == 1 }

/-- So here; and the loop meets the locations in the opposite order. -/
def backEnv : Env := { pruneEnv with order := fun _ => List.reverse }

/-- An item has been changed since the last Flush. -/
def patched : Calls Nat Nat := storeHist ++ [(.op 0 (.patchByIndex 3 5), calmEnv)]

theorem patched_open : Opened sampleSetup 60 patched 0 := by
  unfold Opened patched
  rw [List.append_assoc]
  exact storeHist_then (by simp only [List.cons_append, List.nil_append, List.mem_cons, List.not_mem_nil, or_false, forall_eq_or_imp, forall_eq]; exact ⟨⟨rfl, trivial⟩, rfl, trivial⟩) (by simp)

theorem patched_clear : sampleSetup.Clear 60 patched 0 := by
  refine (patched_open.last (by simp)).1.clear fun x hx => ?_
  rcases List.mem_append.1 hx with hx | hx
  · exact storeHist_mild x hx
  · obtain rfl := List.mem_singleton.1 hx
    trivial

theorem patched_enough (n : Nat) (hn : n ≤ 5) (t : TreeId) : (sampleSetup.cfg t).max + (patched.length + n) + 2 < 60 := by
  have := storeHist_enough (n + 1) (by omega) t
  simp only [patched, List.length_append, List.length_singleton]
  omega

theorem patched_prune : (sampleSetup.run 60 (sampleSetup.now 60 patched) (.prune 0) pruneEnv).1 ≠ .ok .unit := by
  have : isOk (sampleSetup.run 60 (sampleSetup.now 60 patched) (.prune 0) pruneEnv).1 = false := by decide +kernel
  intro h
  rw [h] at this
  cases this

theorem patched_back : (sampleSetup.run 60 (sampleSetup.now 60 patched) (.prune 0) backEnv).1 ≠ .ok .unit := by
  have : isOk (sampleSetup.run 60 (sampleSetup.now 60 patched) (.prune 0) backEnv).1 = false := by decide +kernel
  intro h
  rw [h] at this
  cases this

example := C56_failing_prune patched_open patched_clear (patched_enough 2 (by omega)) pruneEnv patched_prune
example := C56_failing_prune patched_open patched_clear (patched_enough 2 (by omega)) backEnv patched_back
example : (sampleSetup.see 60 (sampleSetup.now 60 patched) (.prune 0) pruneEnv).gone ≠ (sampleSetup.see 60 (sampleSetup.now 60 patched) (.prune 0) backEnv).gone := by decide +kernel

theorem discardDisk_cases (r : Ref) (w : World K V) :
    (∃ w', discardDisk r w = (.err .discardNode, w') ∧ w'.disk = w.disk ∧ w'.log = w.log ∧ w'.trees = w.trees) ∨
    (w.disk r ≠ none ∧ ∃ w', discardDisk r w = (.ok (), w') ∧ (∀ x, w'.disk x = if x = r then none else w.disk x) ∧ w'.trees = w.trees) := by
  unfold discardDisk
  dsimp only
  split
  · exact .inl ⟨_, rfl, rfl, rfl, rfl⟩
  · split
    · exact .inl ⟨_, rfl, rfl, rfl, rfl⟩
    · rename_i h
      exact .inr ⟨by rw [h]; nofun, _, rfl, fun _ => rfl, rfl⟩

theorem pruneLoop_keep : ∀ (l : List Ref) (w : World K V), (pruneLoop l w).2.trees = w.trees ∧ ∀ x, w.disk x = none → (pruneLoop l w).2.disk x = none
  | [], _ => ⟨rfl, fun _ h => h⟩
  | r :: l, w => by
      unfold pruneLoop
      rcases discardDisk_cases r w with ⟨w', e1, e2, -, e3⟩ | ⟨-, w', e1, e2, e3⟩
      · rw [bind_err e1]
        exact ⟨e3, fun x h => by show w'.disk x = none; rw [e2]; exact h⟩
      · rw [bind_ok e1]
        obtain ⟨h1, h2⟩ := pruneLoop_keep l w'
        exact ⟨h1.trans e3, fun x h => h2 x (by rw [e2]; split; exacts [rfl, h])⟩

/-- DiscardNode refuses locations where nothing is stored. -/
theorem pruneLoop_needs : ∀ (l : List Ref) (w : World K V), (∃ x ∈ l, w.disk x = none) → ∃ w', pruneLoop l w = (.err .discardNode, w')
  | [], _, h => by simp at h
  | r :: l, w, ⟨x, hx, hd⟩ => by
      unfold pruneLoop
      rcases discardDisk_cases r w with ⟨w', e1, -⟩ | ⟨e0, w', e1, e2, -⟩
      · exact ⟨w', bind_err e1⟩
      · have hne : x ≠ r := fun e => e0 (e ▸ hd)
        obtain ⟨w2, h⟩ := pruneLoop_needs l w' ⟨x, (List.mem_cons.1 hx).resolve_left hne, by rw [e2, if_neg hne]; exact hd⟩
        exact ⟨w2, by rw [bind_ok e1, h]⟩

theorem pruneLoop_out : ∀ (l : List Ref) (w : World K V),
    (∃ w', pruneLoop l w = (.ok (), w')) ∨ ∃ w', pruneLoop l w = (.err .discardNode, w') ∧ (w'.log ≠ w.log → ∃ x ∈ l, w'.disk x = none)
  | [], w => .inl ⟨w, rfl⟩
  | r :: l, w => by
      have hk := pruneLoop_keep (K := K) (V := V) l
      unfold pruneLoop
      rcases discardDisk_cases r w with ⟨w', e1, -, e2, -⟩ | ⟨-, w', e1, e2, -⟩
      · exact .inr ⟨w', bind_err e1, fun h => absurd e2 h⟩
      · rw [bind_ok e1]
        rcases pruneLoop_out l w' with h | ⟨w2, h, -⟩
        · exact .inl h
        · refine .inr ⟨w2, h, fun _ => ⟨r, by simp, ?_⟩⟩
          have := (hk w').2 r (by rw [e2, if_pos rfl])
          rwa [h] at this

/-- **C56.** A Prune that failed after it had discarded a location cannot be retried: the next call passes locations to DiscardNode once more that it has
discarded, which DiscardNode refuses. -/
theorem C56_retry_fails {w : World K V} {e : Err} (he : (S.run fuel w (.prune t) v).1 = .err e) (hg : (S.see fuel w (.prune t) v).gone ≠ []) (v' : Env) :
    (S.run fuel (S.run fuel w (.prune t) v).2 (.prune t) v').1 = .err .discardNode := by
  have key : ∀ w : World K V, ∃ l, l.Perm (w.trees t).stale ∧ prune t w = (pruneLoop l >>= fun _ => modT t fun t => { t with stale := [] }) w := fun w => by
    obtain ⟨l, h1, h2⟩ := ranged_run (w.trees t).stale w
    refine ⟨l, h2, ?_⟩
    unfold prune pruneWhileLocked
    rw [getT_bind, bind_ok h1]
  obtain ⟨l, hl, k⟩ := key (w.using v)
  rcases pruneLoop_out l (w.using v) with ⟨w1, hd⟩ | ⟨w1, hd, hx⟩
  · have h1 : ∃ w2, prune t (w.using v) = (.ok (), w2) := ⟨_, by rw [k]; exact (bind_ok hd).trans (modT_run _ _ _)⟩
    obtain ⟨w2, h1⟩ := h1
    simp only [Setup.run, exec] at he
    rw [reply_ok h1] at he
    cases he
  · have h1 : prune t (w.using v) = (.err .discardNode, w1) := by rw [k]; exact bind_err hd
    have hr : S.run fuel w (.prune t) v = (.err .discardNode, w1) := by
      simp only [Setup.run, exec]
      rw [reply_err h1]
    obtain ⟨x, hx1, hx2⟩ := hx fun h => by
      apply hg
      simp only [Setup.see, obs, hr, h, Nat.sub_self, List.take_zero]
    have ht := (pruneLoop_keep l (w.using v)).1
    rw [hd] at ht
    obtain ⟨l', hl', k'⟩ := key (w1.using v')
    have hs : ((w1.using v').trees t).stale = ((w.using v).trees t).stale := congrArg (fun T => (T t).stale) ht
    obtain ⟨w2, h2⟩ := pruneLoop_needs l' (w1.using v') ⟨x, hl'.mem_iff.2 (hs ▸ hl.subset hx1), hx2⟩
    have h3 : prune t (w1.using v') = (.err .discardNode, w2) := by rw [k']; exact bind_err h2
    rw [hr]
    simp only [Setup.run, exec]
    rw [reply_err h3]

example := C56_retry_fails (v := pruneEnv) (C56_failing_prune patched_open patched_clear (patched_enough 2 (by omega)) pruneEnv patched_prune).1 (by decide +kernel)

theorem old_gone (hd : (S.now fuel cs).disk r = none) (v1 v2 : Env) : (S.run fuel (S.now fuel (cs ++ [(.restart, v1)])) (.old t r) v2).1 = .err .getNode := by
  refine exec_old_missing ?_ ?_
  · rw [Setup.now, after_one]
    exact hd
  · rw [Setup.now, after_one]
    rfl

/-- PutNode uses a location anew. -/
def reuseEnv : Env := { calmEnv with putLoc := fun n => some (if n = 2 then (3, 200) else (4, 100 * n)) }

theorem locOf_eq {x : Out (Api.Reply Nat Nat)} {r : Ref} (h : locOf x = some r) : x = .ok (.loc r) := by
  obtain ⟨r', hr⟩ := locOf_some (show (locOf x).isSome = true by rw [h]; rfl)
  rw [hr] at h
  cases h
  exact hr

/-- **C56.** Retrying a Prune that failed can destroy the map: here a Prune fails, Flush succeeds and stores a node where one had been discarded, the next Prune
succeeds, and has discarded the location that FetchLocation answers; it can no longer be opened. -/
theorem C56_retry_destroys : ∃ (S : Setup Nat Nat) (fuel : Nat) (cs : Calls Nat Nat) (t : TreeId) (r : Ref) (l : List (Nat × Nat)), Stored S fuel cs t r l ∧
    isOk (S.run fuel (S.now fuel cs) (.prune t) calmEnv).1 = true ∧ r ∈ (S.see fuel (S.now fuel cs) (.prune t) calmEnv).gone ∧
    ∀ v1 v2, (S.run fuel (S.now fuel (cs ++ [(.prune t, calmEnv), (.restart, v1)])) (.old t r) v2).1 = .err .getNode := by
  obtain ⟨l, hst⟩ : ∃ l, Stored sampleSetup 60 (patched ++ [(.prune 0, pruneEnv)] ++ [(.flush 0 false, reuseEnv)]) 0 ⟨3, 200, 49⟩ l := by
    obtain ⟨-, -, -, -, -, h1⟩ := C56_failing_prune patched_open patched_clear (patched_enough 2 (by omega)) pruneEnv patched_prune
    have h2 := (h1 0 patched_open).1
    have h3 := h2.call (c := .flush 0 false) (v := reuseEnv) rfl nofun trivial
    have h4 := h2.after h3 trivial (by simpa using patched_enough 3 (by omega))
    obtain ⟨-, -, -, m, -, -, -, h5, -⟩ := Hist.call h4 rfl
    refine ⟨m.items, h4, ?_, by decide, h5⟩
    exact locOf_eq (by decide +kernel)
  refine ⟨_, _, _, _, _, l, hst, by decide +kernel, by decide +kernel, fun v1 v2 => ?_⟩
  have hd : (sampleSetup.now 60 (patched ++ [(.prune 0, pruneEnv)] ++ [(.flush 0 false, reuseEnv)] ++ [(.prune 0, calmEnv)])).disk ⟨3, 200, 49⟩ = none := by
    have : ((sampleSetup.now 60 (patched ++ [(.prune 0, pruneEnv)] ++ [(.flush 0 false, reuseEnv)] ++ [(.prune 0, calmEnv)])).disk ⟨3, 200, 49⟩).isNone = true := by decide +kernel
    simpa using this
  rw [show ∀ a b c : Calls Nat Nat, ∀ x y, a ++ b ++ c ++ [x, y] = a ++ b ++ c ++ [x] ++ [y] by simp]
  exact old_gone hd v1 v2

end

end SM.Props

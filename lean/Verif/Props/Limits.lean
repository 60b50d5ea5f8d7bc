import Verif.Conc.ManyMaps
import Verif.Props.Cost

/-! The limits and the counters of the cache: C55. -/

namespace SM.BT

variable {K V : Type}

/-- Calls on maps, and the evictions of the drainer, leave the limits of the cache alone and lower no counter. -/
theorem exec_kept (size : DiskNode K V → Nat) (cfg : TreeId → Par K) (n : Nat) {c : Api.Call K V} (h1 : ∀ a b, c ≠ .limits a b) (h2 : c ≠ .restart) (w : World K V) :
    w.ctl.Kept (exec size cfg n c w).2.ctl := by
  have key : ∀ (A : Areas) (t : TreeId), @Home _ _ A t c → w.ctl.Kept (exec size cfg n c w).2.ctl := by
    intro A t h
    obtain ⟨b, hb, _⟩ := @Conf.execMap K V A t size cfg n c h
    have := hb.kept w
    rwa [execMap_eq] at this
  cases c with
  | limits a b => exact absurd rfl (h1 a b)
  | restart => exact absurd rfl h2
  | old t r => exact key (.of fun _ => t) t ⟨rfl, fun _ => rfl⟩
  | evict i => exact key (.of fun _ => 0) i.1 rfl
  | prune t | discard t => exact key (.of fun _ => 0) t ⟨rfl, Areas.of_whole _ _⟩
  | op t | flush t | purge t | touch t | touchItem t | layout t | dimensions t | location t | dump t | new t => exact key (.of fun _ => 0) t rfl

/-- The limits are set, the counters are left alone. -/
theorem updateLimits_ctl (a b : Nat) (w : World K V) : (updateLimits a b w).2.ctl.low = a ∧ (updateLimits a b w).2.ctl.high = b ∧
    (updateLimits a b w).2.ctl.hits = w.ctl.hits ∧ (updateLimits a b w).2.ctl.misses = w.ctl.misses := by
  simp only [updateLimits]
  split <;> exact ⟨rfl, rfl, rfl, rfl⟩

theorem drainerLook_kept (w : World K V) : w.ctl.Kept (drainerLook w).2.ctl := by
  simp only [drainerLook]
  split
  · exact ⟨rfl, rfl, Nat.le_refl _, Nat.le_refl _⟩
  · split <;> exact ⟨rfl, rfl, Nat.le_refl _, Nat.le_refl _⟩

end SM.BT

namespace SM.Props
open SM.BT

variable {K V : Type} {S : Setup K V} {fuel : Nat} {w : World K V} {cs ds : Calls K V} {v : Env} {c : Api.Call K V}

theorem after_kept (h : ∀ p ∈ ds, (∀ a b, p.1 ≠ .limits a b) ∧ p.1 ≠ .restart) : w.ctl.Kept (S.after fuel w ds).ctl := by
  induction ds generalizing w with
  | nil => exact .refl _
  | cons p ds ih =>
    have h1 := h p (List.mem_cons_self ..)
    exact Ctl.Kept.trans (exec_kept (w := w.using p.2) S.size S.cfg fuel h1.1 h1.2) (ih fun q hq => h q (List.mem_cons_of_mem _ hq))

/-- **C55.** Stats reports the limits that were last set: those of the last UpdateLimits, or of NewBPlusTreeCache. No call on a map of the cache changes them, and no eviction,
whether it succeeds or fails, whatever the state of the maps. -/
theorem C55_limits_last_set {a b : Nat} (h : ∀ p ∈ ds, (∀ a b, p.1 ≠ .limits a b) ∧ p.1 ≠ .restart) :
    ∃ s : Stats, stats (S.after fuel w ((.limits a b, v) :: ds)) = (.ok s, S.after fuel w ((.limits a b, v) :: ds)) ∧ s.low = a ∧ s.high = b := by
  refine ⟨_, rfl, ?_⟩
  have h1 := after_kept (S := S) (fuel := fuel) (w := (S.run fuel w (.limits a b) v).2) h
  have h2 : (S.run fuel w (.limits a b) v).2 = (updateLimits a b (w.using v)).2 := by rw [Setup.run, exec, reply_world]
  rw [h2] at h1
  have h3 := updateLimits_ctl a b (w.using v)
  simp only [Setup.after, h2]
  exact ⟨h1.low.trans h3.1, h1.high.trans h3.2.1⟩

/-- **C55.** The counters that Stats reports never decrease, until the process ends. -/
theorem C55_counters_never_decrease (h : ∀ p ∈ ds, p.1 ≠ .restart) :
    ∃ s s' : Stats, stats w = (.ok s, w) ∧ stats (S.after fuel w ds) = (.ok s', S.after fuel w ds) ∧ s.hits ≤ s'.hits ∧ s.misses ≤ s'.misses := by
  refine ⟨_, _, rfl, rfl, ?_⟩
  dsimp only
  induction ds generalizing w with
  | nil => exact ⟨Nat.le_refl _, Nat.le_refl _⟩
  | cons p ds ih =>
    have h1 : w.ctl.hits ≤ (S.run fuel w p.1 p.2).2.ctl.hits ∧ w.ctl.misses ≤ (S.run fuel w p.1 p.2).2.ctl.misses := by
      by_cases hl : ∃ a b, p.1 = .limits a b
      · obtain ⟨a, b, e⟩ := hl
        have h2 : (S.run fuel w p.1 p.2).2 = (updateLimits a b (w.using p.2)).2 := by rw [e, Setup.run, exec, reply_world]
        have h3 := updateLimits_ctl a b (w.using p.2)
        rw [h2]
        exact ⟨Nat.le_of_eq h3.2.2.1.symm, Nat.le_of_eq h3.2.2.2.symm⟩
      · have h3 := exec_kept (w := w.using p.2) S.size S.cfg fuel (c := p.1) (fun a b e => hl ⟨a, b, e⟩) (h p (List.mem_cons_self ..))
        exact ⟨h3.hits, h3.misses⟩
    have h2 := ih (w := (S.run fuel w p.1 p.2).2) fun q hq => h q (List.mem_cons_of_mem _ hq)
    exact ⟨h1.1.trans h2.1, h1.2.trans h2.2⟩

/-- **C55.** The drainer's own bookkeeping changes neither the limits nor the counters. -/
theorem C55_drainer_keeps_stats :
    ∃ s s' : Stats, stats w = (.ok s, w) ∧ stats (drainerLook w).2 = (.ok s', (drainerLook w).2) ∧ s' = s := by
  refine ⟨_, _, rfl, rfl, ?_⟩
  simp only [drainerLook]
  split
  · rfl
  · split <;> rfl

/-! After the sample history the limits are set anew; the calls that follow read, write, fail and evict. -/

def limitCalls : Calls Nat Nat := [(.op 0 (.getByKey 50), sampleEnv), (.flush 0 true, badEnv), (.op 0 (.put 55 1), badEnv), (.evict (0, 3), calmEnv), (.discard 0, sampleEnv)]

example : ∃ s : Stats, (stats (sampleSetup.after 60 (sampleSetup.now 60 treeHist) ((.limits 1 3, calmEnv) :: limitCalls))).1 = .ok s ∧ s.low = 1 ∧ s.high = 3 :=
  have ⟨s, h⟩ := C55_limits_last_set (S := sampleSetup) (fuel := 60) (w := sampleSetup.now 60 treeHist) (a := 1) (b := 3) (v := calmEnv) (ds := limitCalls) (by simp [limitCalls])
  ⟨s, by rw [h.1], h.2⟩

example := C55_counters_never_decrease (S := sampleSetup) (fuel := 60) (w := sampleSetup.now 60 treeHist) (ds := (.limits 1 3, calmEnv) :: limitCalls) (by simp [limitCalls])

/-- The counters do grow. -/
example : (sampleSetup.now 60 storeHist).ctl.hits < (sampleSetup.after 60 (sampleSetup.now 60 storeHist) limitCalls).ctl.hits ∧
    (sampleSetup.now 60 storeHist).ctl.misses < (sampleSetup.after 60 (sampleSetup.now 60 storeHist) limitCalls).ctl.misses := by decide +kernel

end SM.Props

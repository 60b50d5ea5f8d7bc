import Verif.Props.ConcMany
import Verif.Props.Faults

/-!
C40: a map among others, one call after the other: as if the other maps were not there, even when calls on them go wrong in ways after which nothing is
claimed about them.
-/

namespace SM.BT
variable {K V β : Type} [Areas] {t u : TreeId}

theorem BConf.frame {P : β → Prop} {b : Conc.Body (World K V) β} (h : BConf t P b) (hu : u ≠ t) : ∀ {w}, Good w → EnvOk t w.env → Frame u w (b.eval w).2 := by
  induction h with
  | ret h => exact fun _ _ => .refl _ _
  | act h1 h2 _ _ ih => exact fun g e => (h2 _ g e u hu).trans (ih _ g e (h1 _ g e).1 (h1 _ g e).2)

theorem BConf.same {P : β → Prop} {b : Conc.Body (World K V) β} (h : BConf t P b) : ∀ {x y}, Good x → Good y → EnvOk t x.env → Agree t x y → (b.eval x).1 = (b.eval y).1 ∧ Agree t (b.eval x).2 (b.eval y).2 := by
  induction h with
  | ret h => exact fun _ _ _ e => ⟨rfl, e⟩
  | act h1 _ h3 _ ih =>
    intro x y gx gy hx e
    obtain ⟨k1, k2⟩ := h3 x y gx gy hx e
    have hy : EnvOk t y.env := e.2 ▸ hx
    have := ih x gx hx (h1 x gx hx).1 (h1 y gy hy).1 (h1 x gx hx).2 k2
    rw [k1] at this
    simpa only [Conc.Body.eval, k1] using this

section
variable {S : Setup K V} {fuel : Nat} {c : Api.Call K V} {v : Env} {x y w : World K V}

theorem run_frame (hc : Home u c) (hv : EnvOk u v) (hu : t ≠ u) (hw : Good w) : Frame t w (S.run fuel w c v).2 := by
  obtain ⟨b, h1, h2⟩ := Conf.execMap S.size S.cfg fuel hc
  have := (h2 trivial).frame hu (hw.using v) hv
  rw [h1.spec.2, execMap_eq] at this
  have h0 : Frame t w (w.using v) := { Frame.refl t w with }
  exact h0.trans this

theorem run_same (hc : Home t c) (hv : EnvOk t v) (hx : Good x) (hy : Good y) (h : Frame t x y) :
    noCache (S.run fuel x c v).1 = noCache (S.run fuel y c v).1 ∧ Agree t (S.run fuel x c v).2 (S.run fuel y c v).2 := by
  obtain ⟨b, h1, h2⟩ := Conf.execMap S.size S.cfg fuel hc
  have := (h2 trivial).same (hx.using v) (hy.using v) hv ⟨{ h with }, rfl⟩
  rw [h1.spec.2, h1.spec.2, execMap_eq, execMap_eq] at this
  exact this

end

end SM.BT

namespace SM.Props

open Spec (Op stepE)
open Api (OwnCall Mild Wanted)
open BT

/-- The call concerns map `t`. -/
def about {K V : Type} (t : TreeId) : Api.Call K V → Bool
  | .restart => true
  | .limits _ _ => false
  | .evict i => i.1 == t
  | .op t' _ | .flush t' _ | .purge t' _ | .touch t' | .touchItem t' _ | .prune t' | .discard t' | .layout t' | .dimensions t' | .location t' | .dump t' _ | .new t' | .old t' _ => t' == t

section
variable {K V : Type} {S : Setup K V} {fuel : Nat} {t : TreeId} {cs : Calls K V} {c : Api.Call K V} {v : Env} [Areas]

theorem about_home {u : TreeId} (h : Home u c) : about t c = (u == t) := by
  cases c <;> first | exact h.elim | (cases h; rfl) | (cases h.1; rfl)

theorem alone_frame (hc : ∀ x ∈ cs, InPlace x.1 x.2) : Frame t (S.now fuel cs) (S.now fuel (cs.filter fun x => about t x.1)) := by
  suffices ∀ (cs : Calls K V) (x y : World K V), Good x → Good y → Frame t x y → (∀ x ∈ cs, InPlace x.1 x.2) → Frame t (S.after fuel x cs) (S.after fuel y (cs.filter fun x => about t x.1)) from
    this cs _ _ .start .start (.refl _ _) hc
  clear hc
  intro cs
  induction cs with
  | nil => exact fun _ _ _ _ h _ => h
  | cons z cs ih =>
    obtain ⟨c, v⟩ := z
    intro x y hx hy h hc
    have hz := hc (c, v) (by simp)
    replace hc : ∀ x ∈ cs, InPlace x.1 x.2 := fun y hy => hc y (by simp [hy])
    have gx : Good (S.run fuel x c v).2 := hx.exec hz
    have gy : Good (S.run fuel y c v).2 := hy.exec hz
    rcases hz with ⟨u, h1, h2⟩ | ⟨a, b, e⟩ | e
    · dsimp only at h1 h2
      by_cases hu : u = t
      · subst hu
        rw [List.filter_cons_of_pos (by show about u c = true; rw [about_home h1]; simp)]
        exact ih _ _ gx gy (run_same h1 h2 hx hy h).2.1 hc
      · rw [List.filter_cons_of_neg (by show ¬about t c = true; rw [about_home h1]; simpa using hu)]
        exact ih _ _ gx hy ((run_frame h1 h2 (Ne.symm hu) hx).symm.trans h) hc
    · dsimp only at e
      subst e
      rw [List.filter_cons_of_neg (by simp [about])]
      refine ih _ _ gx hy (Frame.trans ?_ h) hc
      simp only [Setup.run, exec]
      rw [reply_world]
      exact { Frame.refl t x with }
    · dsimp only at e
      subst e
      rw [List.filter_cons_of_pos rfl]
      exact ih _ _ gx gy ⟨fun _ _ => rfl, fun _ _ => rfl, fun _ _ => rfl, rfl, rfl, h.disk⟩ hc

/-- **C40.** Any calls on any number of maps, whatever the callbacks do - deletions failing halfway, Prune retried, maps discarded that were not read, calls made that
must not be made - as long as the maps have the storage to themselves, each in its area: what a call on `t` answers, what it makes of the storage of `t` and how
often it calls the callbacks is as if only the calls on `t` (and the restarts) had been made. -/
theorem C40_alone (hc : ∀ x ∈ cs, InPlace x.1 x.2) (hm : Home t c) (hv : EnvOk t v) :
    noCache (S.run fuel (S.now fuel cs) c v).1 = noCache (S.run fuel (S.now fuel (cs.filter fun x => about t x.1)) c v).1 ∧
    (∀ r : Ref, reads t (r.num, r.off) → (S.run fuel (S.now fuel cs) c v).2.disk r = (S.run fuel (S.now fuel (cs.filter fun x => about t x.1)) c v).2.disk r) ∧
    (S.run fuel (S.now fuel cs) c v).2.env = (S.run fuel (S.now fuel (cs.filter fun x => about t x.1)) c v).2.env := by
  obtain ⟨h1, h2⟩ := run_same (S := S) (fuel := fuel) hm hv (now_good hc) (now_good fun x hx => hc x (List.mem_filter.1 hx).1) (alone_frame (t := t) hc)
  exact ⟨h1, h2.1.disk, h2.2⟩

/-- **C40.** Hence a map answers as the sorted list it contains, whatever has become of the others. -/
theorem C40_broken_neighbours {op : Op K V} (hc : ∀ x ∈ cs, InPlace x.1 x.2) (h : Hist S fuel (cs.filter (fun x => about t x.1) ++ [(.op t op, v)])) (hv : v.CanRead) (ha : EnvOk t v) :
    ∃ l, S.Has fuel (S.now fuel (cs.filter fun x => about t x.1)) t l ∧ Wanted (S.cfg t).cmp op (S.run fuel (S.now fuel cs) (.op t op) v).1 (stepE (S.cfg t).cmp l op).1 := by
  obtain ⟨l, h1, -, -, h2, -⟩ := C15_btree_operation h hv
  refine ⟨l, h1, ?_⟩
  have := (C40_alone (S := S) (fuel := fuel) (c := .op t op) hc rfl ha).1
  have hn : ∀ w, noCache (S.run fuel w (.op t op) v).1 = (S.run fuel w (.op t op) v).1 := fun w => noCache_reply nofun _ _
  rw [hn, hn] at this
  rw [this]
  exact h2

end

/-! A concrete case: a deletion on map 0 fails halfway, after which it loses an item and GetByIndex panics, as in `C16_btree_panics_after_failed_delete`; map 1 shares
the cache. -/

/-- what lies under the numbers 1 and 2 is map 0's -/
@[reducible] def brokenAreas : Areas := .of fun p => if p.1 = 1 ∨ p.1 = 2 then 0 else 1

def brokenHist : Calls Nat Nat := [(.new 1, calmEnv), (.op 1 (.put 5 6), calmEnv)] ++ twentyHist ++ lossCalls ++ [(.op 0 (.getByIndex 4), calmEnv)]

section
attribute [local instance] brokenAreas

theorem brokenHist_within : ∀ x ∈ brokenHist, InPlace x.1 x.2 := by
  have h1 : EnvOk 0 (putEnv 1) := fun n p h => by cases h; rfl
  have h2 : EnvOk 0 (putEnv 2) := fun n p h => by cases h; rfl
  have h3 : EnvOk 0 (noReadEnv 4) := fun n p h => by cases h
  intro x hx
  simp only [brokenHist, twentyHist, lossCalls, List.mem_append, List.mem_cons, List.not_mem_nil, or_false, List.mem_map, List.mem_range] at hx
  rcases hx with (((rfl | rfl) | rfl | ⟨k, -, rfl⟩ | rfl) | rfl | rfl) | rfl
  · exact .inl ⟨1, rfl, calmEnv_area 1⟩
  · exact .inl ⟨1, rfl, calmEnv_area 1⟩
  · exact .inl ⟨0, rfl, calmEnv_area 0⟩
  · exact .inl ⟨0, rfl, calmEnv_area 0⟩
  · exact .inl ⟨0, rfl, h1⟩
  · exact .inl ⟨0, rfl, h3⟩
  · exact .inl ⟨0, rfl, h2⟩
  · exact .inl ⟨0, rfl, calmEnv_area 0⟩

theorem brokenHist_about : brokenHist.filter (fun x => about 1 x.1) = [(.new 1, calmEnv), (.op 1 (.put 5 6), calmEnv)] := rfl

example := C40_broken_neighbours (S := sampleSetup) (fuel := 60) (t := 1) (op := .getByKey 5) (v := calmEnv) brokenHist_within
  (by
    rw [brokenHist_about]
    exact hist_mild (t := 1) (v0 := calmEnv) (cs := [(.op 1 (.put 5 6), calmEnv), (.op 1 (.getByKey 5), calmEnv)])
      (by simp only [List.mem_cons, List.not_mem_nil, or_false, forall_eq_or_imp, forall_eq]; exact ⟨⟨⟨rfl, by show 5 < 1000; omega⟩, trivial⟩, rfl, trivial⟩) (by simp [sampleSetup]))
  calmEnv_works.1 (calmEnv_area 1)

/-- Map 0 did panic. -/
example : isFatal (sampleSetup.run 60 (sampleSetup.now 60 brokenHist) (.op 0 (.getByIndex 4)) calmEnv).1 = true := by decide +kernel

end

end SM.Props

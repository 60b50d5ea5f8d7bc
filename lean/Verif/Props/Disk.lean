import Verif.Props.Reach

/-!
What the client's storage looks like after a history, and reopening maps.
-/

namespace SM.BT

open Spec (Op Ans AgreesE Refused stepE has at?)
open Api (Step Steps Pre Legal Intact Hurt Sane Wanted)

variable {K V : Type}

section
variable {S : Setup K V} {fuel : Nat} {cs ds : Calls K V} {w : World K V} {s s' : Api.St K V} {n : Nat} {t : TreeId} {m : Api.Map K V}
  {v : Env} {c : Api.Call K V} {P : Par K} {r : Ref} {sn : Api.Snap K V} {H : Nat}

theorem Inv.leads (hi : Inv S.cfg n w s) (hr : s.snaps r = some sn) (x : Ref) : x ∈ sn.locs ↔ Leads w.disk r x := by
  obtain ⟨H, d, -, h, -⟩ := hi.snaps r sn hr
  exact h.leads x

theorem Inv.ne_zero (hi : Inv S.cfg n w s) (hr : s.snaps r = some sn) : r ≠ .zero := by
  obtain ⟨H, d, -, h, -⟩ := hi.snaps r sn hr
  exact h.ne_zero

/-- What is discarded is not there any more, and the rest is. -/
theorem Inv.drops (hi : Inv S.cfg n w s) (hf : ∀ t, (S.cfg t).max + n + 2 < fuel) (hp : Pre S.api v.faults s c) :
    ∀ x, (x ∈ (S.see fuel w c v).gone → (S.run fuel w c v).2.disk x = none) ∧
      (x ∉ (S.see fuel w c v).gone → ∀ d, w.disk x = some d → (S.run fuel w c v).2.disk x = some d) := by
  have hi := hi.using v
  by_cases hn : (∀ t, c ≠ .prune t) ∧ ∀ t, c ≠ .discard t
  · have hq := exec_adds (w := w.using v) (cfg := S.cfg) S.size fuel c hn.1 hn.2
    intro x
    rw [show (S.see fuel w c v).gone = [] by simp [Setup.see, obs, Setup.run, hq.log]]
    exact ⟨fun h => (by cases h), fun _ d h => hq.disk x d h⟩
  · cases hs : s.sound with
    | false => exact absurd ⟨by rintro t rfl; simp [Pre, hs] at hp, by rintro t rfl; simp [Pre, hs] at hp⟩ hn
    | true =>
      have hc : (∃ t, c = .prune t) ∨ ∃ t, c = .discard t := by
        by_contra h
        push_neg at h
        exact hn h
      obtain ⟨L, LK, hS⟩ := hi.shows hs
      rcases hc with ⟨t, rfl⟩ | ⟨t, rfl⟩
      · simp only [Pre, hs, if_true] at hp
        obtain ⟨m, hm, hT⟩ := hp
        obtain ⟨a, e, b, rfl, rfl, h1, h2, h3⟩ := hS.split hm
        have hr := hS.scene.focus
        simp only [Setup.see, Setup.run, exec]
        rcases (prune_run hr.I (h1.fails ▸ hT)).cases with ⟨_, w', e1, l, -, rfl, hI⟩ | ⟨x, w', e1, rfl, h1, pre, r, post, h2, rfl, -⟩
        · rw [reply_ok e1]
          intro x
          rw [(gone_dropped rfl).1, List.mem_reverse]
          simp only [dropped, World.setT]
          exact ⟨fun hx => if_pos hx, fun hx d hd => by rw [if_neg hx]; exact hd⟩
        · rw [reply_err e1]
          intro x
          rw [(gone_dropped (σ := 0) (t := w.trees 0) rfl).2, List.mem_reverse]
          simp only [dropped]
          exact ⟨fun hx => if_pos hx, fun hx d hd => by rw [if_neg hx]; exact hd⟩
      · simp only [Pre, hs, if_true] at hp
        obtain ⟨⟨m, hm, hT⟩, h1, h2, h3⟩ := hp
        obtain ⟨a, e, b, rfl, rfl, h4, h5, h6⟩ := hS.split hm
        have hr := hS.scene.focus
        have hH := hS.high e (by simp)
        obtain ⟨w1, w', l, -, e1, q1, -, rfl, -⟩ := discard_run (fuel := fuel) hr (h4.fails ▸ hT) (by have := hf e.P.τ; omega)
          (fun k => by exact Bool.eq_false_iff.2 fun h => h1 ⟨k, h⟩) (fun k => by exact Bool.eq_false_iff.2 fun h => h2 ⟨k, h⟩)
          (fun k => by exact Bool.eq_false_iff.2 fun h => h3 ⟨k, h⟩)
        simp only [Setup.see, Setup.run, exec]
        rw [← h5, reply_ok e1]
        intro x
        rw [(gone_dropped q1.log).1, List.mem_reverse]
        simp only [dropped, World.setT]
        exact ⟨fun hx => if_pos hx, fun hx d hd => by rw [if_neg hx, q1.disk]; exact hd⟩

theorem Inv.gone (hi : Inv S.cfg n w s) (hf : ∀ t, (S.cfg t).max + n + 2 < fuel) (hp : Pre S.api v.faults s c) :
    ∀ x ∈ (S.see fuel w c v).gone, (S.run fuel w c v).2.disk x = none :=
  fun x hx => (hi.drops hf hp x).1 hx

/-- A Purge that fails has done nothing. -/
theorem Inv.purge_err (hi : Inv S.cfg n w s) (hf : ∀ t, (S.cfg t).max + n + 2 < fuel) (hs : s.sound = true) (hm : s.maps t = some m) {full : Bool} {e : Err}
    (he : (S.run fuel w (.purge t full) v).1 = .err e) : (S.run fuel w (.purge t full) v).2 = w.using v := by
  obtain ⟨L, LK, hS⟩ := (hi.using v).shows hs
  obtain ⟨a, x, b, rfl, rfl, h4, h5, h6⟩ := hS.split hm
  have hH := hS.high x (by simp)
  have := hf x.P.τ
  simp only [Setup.run, exec] at he ⊢
  rcases (purge_run (fuel := fuel) hS.scene.focus (by omega) full).cases with ⟨_, w', e1, -⟩ | ⟨y, w', e1, rfl, -, -, rfl⟩
  · rw [reply_ok e1] at he; cases he
  · rw [reply_err e1]

/-- A shorter history. -/
theorem Hist.init : ∀ {ds : Calls K V}, Hist S fuel (cs ++ ds) → (∀ x ∈ ds, x.1 ≠ .restart) → Hist S fuel cs := by
  intro ds
  induction ds using List.reverseRecOn with
  | nil => intro h _; simpa using h
  | append_singleton ds x ih =>
    intro h hx
    obtain ⟨c, v⟩ := x
    rw [← List.append_assoc] at h
    exact ih (h.last (hx (c, v) (by simp))).1 (fun y hy => hx y (by simp [hy]))

/-- The state before and after the last calls of a history. -/
theorem Hist.split (h : Hist S fuel (cs ++ ds)) (hd : ∀ x ∈ ds, x.1 ≠ .restart) : Hist S fuel cs ∧ ∃ s s', At S fuel cs s ∧ s.sound = true ∧
    Steps S.api s (S.trace fuel (S.now fuel cs) ds) s' ∧ At S fuel (cs ++ ds) s' ∧ s'.sound = true := by
  have h0 := h.init hd
  obtain ⟨s, h1, h2⟩ := h0.at
  obtain ⟨s', h3, h4⟩ := h1.more h.enough h.legal
  exact ⟨h0, s, s', h1, h2, h3, h4, h4.steps.intact rfl h.intact⟩

/-- The next process opens a snapshot. -/
theorem At.reopen (h : At S fuel cs s) (hf : ∀ t, (S.cfg t).max + (cs.length + 2) + 2 < fuel)
    (hr : s.snaps r = some sn) (v1 : Env) {v2 : Env} (hv : v2.CanRead) :
    Hist S fuel (cs ++ [(.restart, v1), (.old sn.map r, v2)]) ∧
    (S.run fuel (S.now fuel (cs ++ [(.restart, v1)])) (.old sn.map r) v2).1 = .ok .unit ∧
    ∃ s', At S fuel (cs ++ [(.restart, v1), (.old sn.map r, v2)]) s' ∧ s'.sound = true ∧ s'.maps sn.map = some ⟨sn.items, sn.locs, 0, some r, 0⟩ ∧ s'.snaps r = some sn := by
  obtain ⟨s1, h1, h2⟩ := h.one (v := v1) (c := .restart) (fun t => by have := hf t; simp; omega) trivial
  obtain ⟨-, -, rfl⟩ := h1.2
  have hp : Pre S.api v2.faults { s with maps := fun _ => none, lost := s.holds, sound := true } (.old sn.map r) := by
    simp only [Pre, if_true]
    exact ⟨trivial, sn, hr, rfl⟩
  obtain ⟨s2, h3, h4⟩ := h2.one (v := v2) (c := .old sn.map r) (fun t => by have := hf t; simp; omega) hp
  rw [List.append_assoc] at h4
  have h5 := h3.2
  simp only [if_true] at h5
  obtain ⟨-, sn', k1, k2⟩ := h5
  rw [hr, Option.some.injEq] at k1
  subst k1
  have k3 := k2.resolve_right (by rintro ⟨e, -, k, -⟩; exact hv.no.not k)
  obtain ⟨k3, rfl⟩ := k3
  refine ⟨⟨fun t => by have := hf t; simp; omega, h4.legal, ?_⟩, k3, _, h4, rfl, Api.set_same _ _ _, hr⟩
  rw [show cs ++ [(.restart, v1), (.old sn.map r, v2)] = (cs ++ [(.restart, v1)]) ++ [(.old sn.map r, v2)] by simp, trace_append, trace_append]
  exact ⟨S.trace fuel start cs ++ [_], _, rfl, .inr ⟨_, _, _, rfl⟩, fun x hx => by
    rw [show S.trace fuel (S.after fuel start (cs ++ [(.restart, v1)])) [(.old sn.map r, v2)] = [(.old sn.map r, v2.faults, S.see fuel (S.after fuel start (cs ++ [(.restart, v1)])) (.old sn.map r) v2)] from rfl,
      List.mem_singleton] at hx
    rw [hx]; exact id⟩

/-- FetchLocation. -/
theorem At.loc (h : At S fuel cs s) (hf : ∀ t, (S.cfg t).max + cs.length + 2 < fuel) (hs : s.sound = true) (hm : s.maps t = some m) :
    (S.run fuel (S.now fuel cs) (.location t) v).1 = .ok (.loc (m.saved.getD .zero)) := by
  have hp : Pre S.api v.faults s (.location t) := by simp only [Pre, hs, if_true]; exact ⟨m, hm⟩
  obtain ⟨s', h1, -⟩ := h.inv.step (v := v) hf hp
  exact (h1.on hs rfl hm).2.1

theorem At.saved (h : At S fuel cs s) (hf : ∀ t, (S.cfg t).max + cs.length + 2 < fuel) (hs : s.sound = true) (hm : s.maps t = some m)
    (hl : (S.run fuel (S.now fuel cs) (.location t) v).1 = .ok (.loc r)) (hr : r ≠ .zero) : m.saved = some r := by
  rw [h.loc hf hs hm] at hl
  cases hx : m.saved with
  | none => rw [hx] at hl; cases hl; exact absurd rfl hr
  | some x => rw [hx] at hl; cases hl; rfl

/-- Map `t` is open, contains `l`, and FetchLocation says it is stored at `r`. -/
structure Stored (S : Setup K V) (fuel : Nat) (cs : Calls K V) (t : TreeId) (r : Ref) (l : List (K × V)) : Prop where
  hist : Hist S fuel (cs ++ [(.location t, calmEnv)])
  loc : (S.run fuel (S.now fuel cs) (.location t) calmEnv).1 = .ok (.loc r)
  ne : r ≠ .zero
  has : S.Has fuel (S.now fuel cs) t l

theorem Stored.at {l : List (K × V)} (h : Stored S fuel cs t r l) : Hist S fuel cs ∧ ∃ s m, At S fuel cs s ∧ s.sound = true ∧ s.maps t = some m ∧ m.saved = some r ∧ m.items = l ∧
    s.snaps r = some ⟨t, l, m.live⟩ := by
  obtain ⟨h0, s, s', m, h1, h2, h3, h4, -⟩ := h.hist.call rfl
  have h5 := h1.saved h0.enough h2 h3 h.loc h.ne
  have h6 := h4.unique h.has
  refine ⟨h0, s, m, h1, h2, h3, h5, h6, ?_⟩
  rw [h1.sane.saved t m r h3 h5, h6]

/-- A call that does no harm makes a longer history. -/
theorem Hist.snoc (h : Hist S fuel cs) (hs : At S fuel cs s) (hf : ∀ t, (S.cfg t).max + (cs.length + 1) + 2 < fuel) (hp : Pre S.api v.faults s c) (hm : Api.Mild v.faults c) :
    Hist S fuel (cs ++ [(c, v)]) := by
  have hss := hs.steps.intact rfl h.intact
  obtain ⟨s', h1, h2⟩ := hs.one (v := v) (c := c) (fun t => by have := hf t; simp; omega) hp
  refine ⟨fun t => by have := hf t; simp; omega, h2.legal, ?_⟩
  rw [trace_append]
  exact h.intact.snoc (h1.mild hss hm).2

theorem At.stored (h : At S fuel cs s) (hh : Hist S fuel cs) (hf : ∀ t, (S.cfg t).max + (cs.length + 1) + 2 < fuel) (hm : s.maps t = some m)
    (hr : m.saved = some r) : Stored S fuel cs t r m.items := by
  have hs := h.steps.intact rfl hh.intact
  refine ⟨hh.snoc h hf (by simp only [Pre, hs, if_true]; exact ⟨m, hm⟩) trivial, ?_, ?_, h.has hh.enough hs hm⟩
  · rw [h.loc hh.enough hs hm, hr]; rfl
  · exact h.inv.ne_zero (h.sane.saved t m r hm hr)

/-- Flush stores. -/
theorem Hist.flush {p : Bool} {l : List (K × V)} (h : Hist S fuel (cs ++ [(.flush t p, v)])) (hf : ∀ t, (S.cfg t).max + (cs.length + 2) + 2 < fuel)
    (hok : (S.run fuel (S.now fuel cs) (.flush t p) v).1 = .ok (.loc r)) (hl : S.Has fuel (S.now fuel cs) t l) : Stored S fuel (cs ++ [(.flush t p, v)]) t r l := by
  obtain ⟨h0, s, s', m, h1, h2, h3, h4, h5, h6, h7⟩ := h.call rfl
  obtain ⟨-, -, new, ⟨r', k1, -, -, -, -, rfl⟩ | ⟨k1, -⟩⟩ := h5
  · replace k1 : (S.run fuel (S.now fuel cs) (.flush t p) v).1 = .ok (.loc r') := k1
    rw [hok] at k1
    cases k1
    have := h6.stored h (m := { m with live := m.live + new, saved := some r }) (r := r) (t := t) (fun t => by have := hf t; simp; omega) (Api.set_same _ _ _) rfl
    rw [← hl.unique h4] at this
    exact this
  · rcases k1 with ⟨k1, -⟩ | ⟨k1, -⟩
    · replace k1 : (S.run fuel (S.now fuel cs) (.flush t p) v).1 = .err .putNode := k1
      rw [hok] at k1
      cases k1
    · replace k1 : (S.run fuel (S.now fuel cs) (.flush t p) v).1 = .err .codec := k1
      rw [hok] at k1
      cases k1

/-- What Prune and Discard would discard. -/
theorem At.frees (h : At S fuel cs s) (hf : ∀ t, (S.cfg t).max + cs.length + 2 < fuel) (hs : s.sound = true) (hm : s.maps t = some m) (hT : m.fails = 0) (hv : v.Works) :
    ((S.see fuel (S.now fuel cs) (.prune t) v).gone : Multiset Ref) = m.old ∧
    ((S.see fuel (S.now fuel cs) (.discard t) v).gone : Multiset Ref) = m.live + m.old := by
  constructor
  · have hp : Pre S.api v.faults s (.prune t) := by simp only [Pre, hs, if_true]; exact ⟨m, hm, hT⟩
    obtain ⟨s', h1, -⟩ := h.inv.step (v := v) hf hp
    obtain ⟨-, ⟨-, -, k, -⟩ | ⟨-, k, -⟩⟩ := h1.on hs rfl hm
    · exact k
    · exact absurd k hv.no.2
  · have hp : Pre S.api v.faults s (.discard t) := by simp only [Pre, hs, if_true]; exact ⟨⟨m, hm, hT⟩, hv.no.1.1, hv.no.1.2, hv.no.2⟩
    obtain ⟨s', h1, -⟩ := h.inv.step (v := v) hf hp
    obtain ⟨-, -, k, -⟩ := h1.on hs rfl hm
    exact k

/-- As long as the process has not ended, all locations in use belong to open maps. -/
theorem Hist.whole (h : Hist S fuel cs) (hn : ∀ x ∈ cs, x.1 ≠ .restart) : ∃ s, At S fuel cs s ∧ s.sound = true ∧ s.exact = true ∧ ∀ x, ¬s.lost x := by
  have key : ∀ {l : List (Api.Call K V × Api.Faults × Api.Obs K V)} {s s' : Api.St K V}, Steps S.api s l s' → (∀ x ∈ l, ¬Hurt x ∧ x.1 ≠ .restart) → s.sound = true → s.exact = true →
      (∀ x, ¬s.lost x) → s'.exact = true ∧ ∀ x, ¬s'.lost x := by
    intro l
    induction l with
    | nil => intro s s' h _ _ h1 h2; cases h; exact ⟨h1, h2⟩
    | cons y l ih =>
      obtain ⟨c, F, o⟩ := y
      rintro s s' ⟨s1, h1, h2, h3⟩ hk h4 h5 h6
      have hh := hk (c, F, o) (by simp)
      have hs1 := h2.sound h4 hh.1
      have : s1.exact = true ∧ ∀ x, ¬s1.lost x := by
        rcases h2.cases h4 with ⟨t, m, k1, k2, k3⟩ | ⟨t, -, -, -, rfl⟩ | ⟨t, r, sn, -, -, -, ⟨-, rfl⟩ | ⟨e, -, -, rfl⟩⟩ | ⟨-, -, -, rfl⟩ | ⟨k, -⟩
        · cases c with
          | op _ op =>
            obtain ⟨-, ⟨h1, ⟨-, rfl⟩ | ⟨-, m', h3, rfl⟩⟩ | ⟨e, h1, h2, h3, rfl⟩ | ⟨e, h1, h2, rfl⟩⟩ := k3 <;> exact ⟨h5, h6⟩
          | flush _ b => obtain ⟨-, -, new, ⟨r', -, -, -, h1, -, rfl⟩ | ⟨-, -, -, rfl⟩⟩ := k3 <;> exact ⟨h5, h6⟩
          | purge _ b => obtain ⟨-, rfl, -⟩ := k3; exact ⟨h5, h6⟩
          | touch _ => obtain ⟨-, ⟨-, rfl⟩ | ⟨e, -, -, rfl | ⟨m', h1, rfl⟩⟩⟩ := k3 <;> exact ⟨h5, h6⟩
          | touchItem _ i => obtain ⟨-, ⟨-, -, rfl⟩ | ⟨n, -, -, -, m', h1, -, rfl⟩ | ⟨e, -, -, rfl⟩⟩ := k3 <;> exact ⟨h5, h6⟩
          | prune t' => obtain ⟨-, ⟨-, -, -, rfl⟩ | ⟨h0, h1, -, left, h2, -, rfl⟩⟩ := k3 <;> exact ⟨h5, h6⟩
          | discard t' => obtain ⟨-, -, -, -, rfl⟩ := k3; exact ⟨h5, h6⟩
          | layout _ => obtain ⟨-, rfl, -⟩ := k3; exact ⟨h5, h6⟩
          | dimensions _ => obtain ⟨-, rfl, -⟩ := k3; exact ⟨h5, h6⟩
          | dump _ _ => obtain ⟨-, rfl, -⟩ := k3; exact ⟨h5, h6⟩
          | location _ => obtain ⟨-, -, rfl⟩ := k3; exact ⟨h5, h6⟩
          | new _ => exact k3.elim
          | old _ _ => exact k3.elim
          | evict _ => exact k3.elim
          | limits _ _ => exact k3.elim
          | restart => exact k3.elim
        · exact ⟨h5, h6⟩
        · exact ⟨h5, fun x hx => h6 x hx.1⟩
        · exact ⟨h5, h6⟩
        · exact ⟨h5, h6⟩
        · exact absurd k hh.2
      exact ih h3 (fun x hx => hk x (by simp [hx])) hs1 this.1 this.2
  obtain ⟨s, h1, h2⟩ := h.at
  refine ⟨s, h1, h2, key h1.steps (fun x hx => ?_) rfl rfl (fun _ => id)⟩
  have nr : ∀ x ∈ S.trace fuel BT.start cs, x.1 ≠ .restart := by
    intro x hx
    obtain ⟨a, c, v, b, rfl, rfl⟩ := mem_trace hx
    exact hn (c, v) (by simp)
  obtain ⟨a, b, e, rfl | ⟨a', F, o, rfl⟩, hb⟩ := h.intact
  · rw [List.nil_append] at e
    exact ⟨hb x (e ▸ hx), nr x hx⟩
  · exact absurd rfl (nr (.restart, F, o) (by rw [e]; simp))

theorem exec_old_missing {v : Env} (h : w.disk r = none) (ht : (w.lru.el (w.addr t)).tag = .noLRU) : (S.run fuel w (.old t r) v).1 = .err .getNode := by
  have key : (oldBPlusTree (S.cfg t).cmp t r (S.cfg t).ca (w.using v)).1 = .err .getNode := by
    simp only [oldBPlusTree, loadNode, Bind.bind, M.bind, alloc, modT, initNodeAsEvicted, onLru, getN, getNode, World.using, upd_same, LruS.init]
    by_cases hc : (S.cfg t).ca = true <;> by_cases hg : v.getFails v.gets = true <;> simp [hc, hg, h, upd, show (w.lru.el (t, w.next t)).tag = .noLRU from ht, World.addr]
  simp only [Setup.run, exec, reply]
  rcases hx : oldBPlusTree (S.cfg t).cmp t r (S.cfg t).ca (w.using v) with ⟨_ | _ | _, _⟩ <;> rw [hx] at key <;> cases key; rfl

end

end SM.BT

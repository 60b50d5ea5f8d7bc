import Verif.Props.Cost
import Verif.Props.Faults

/-!
How many nodes Flush writes after an operation on a B+Tree (C60).
-/

namespace SM.BT

open Spec (Op stepE has)

section
variable {K V : Type} {P : Par K} {H : Nat} {w : World K V} {T : Tot K V} {R : B K V} {g : Gt K V H} {fuel : Nat}

theorem Scene.using {L : List (Ent K V)} {LK : Multiset (Ref × DiskNode K V)} (h : Scene w L LK) (v : Env) : Scene (w.using v) L LK :=
  ⟨h.heap.congr (fun _ _ => rfl) rfl rfl rfl rfl, h.nodup, fun x hx => (h.ok x hx).congr rfl⟩

theorem Gt.due_stored (P : Par K) {h : Nat} (t : Gt K V h) (hc : t.Clean) (hz : t.odds = 0) (hs : t.st.isSome) : t.due = 0 := by
  obtain ⟨d, -, h2, h3⟩ := t.stored hc hz hs
  have := due_pages P ⟨none, true⟩ t hz
  rw [h3, Dt.card_pages, h2] at this
  omega

/-- A Flush that succeeds puts the nodes that are due. -/
theorem Rest.flush_puts {size : DiskNode K V → Nat} {pg : Bool} (hr : Rest P w T R g w) (hf : H < fuel) {r : Ref} (hok : (flush size P.τ fuel pg w).1 = .ok r) :
    (flush size P.τ fuel pg w).2.env.puts = w.env.puts + g.due := by
  rcases (flush_run size pg hr hf).cases with ⟨a, w', e1, g', N, -, h1, -, h3, -, h4⟩ | ⟨x, w', e1, -⟩
  · have h5 := due_pages P ⟨none, true⟩ g hr.odds
    have h6 := due_pages P ⟨none, true⟩ g' h1.odds
    rw [h1.erase, h4, Multiset.card_add, Gt.due_stored P g' h1.clean h1.odds h1.stored] at h6
    rw [e1]
    have := h3.puts
    dsimp only
    omega
  · rw [e1] at hok; cases hok

/-- One that fails has put some of them. -/
theorem Rest.flush_fails {size : DiskNode K V → Nat} {pg : Bool} (hr : Rest P w T R g w) (hf : H < fuel) {e : Err} (hok : (flush size P.τ fuel pg w).1 = .err e) :
    ∃ T' g', (∀ σ, σ ≠ P.τ → (flush size P.τ fuel pg w).2.trees σ = w.trees σ) ∧ Rest P (flush size P.τ fuel pg w).2 T' R g' (flush size P.τ fuel pg w).2 ∧ (g' : Gt K V H).due + (flush size P.τ fuel pg w).2.env.puts = w.env.puts + g.due + misses e ∧
      w.env.puts ≤ (flush size P.τ fuel pg w).2.env.puts := by
  rcases (flush_run size pg hr hf).cases with ⟨a, w', e1, -⟩ | ⟨x, w', e1, -, g', N, h1, h3, h2, h4⟩
  · rw [e1] at hok; cases hok
  · have h5 := due_pages P ⟨none, true⟩ g hr.odds
    have h6 := due_pages P ⟨none, true⟩ g' h1.odds
    rw [h1.erase, h4, Multiset.card_add] at h6
    rw [e1] at hok ⊢
    cases hok
    have := h3.puts
    refine ⟨_, g', h3.others, h2, ?_, ?_⟩ <;> dsimp only <;> omega

/-- An operation makes few nodes dirty, and none if it is refused. -/
theorem Rest.op (hr : Rest P w T R g w) (hf : H + P.max + 1 < fuel) (o : Op K V) (hk : ∀ k x, o = .put k x → P.Valid k ∨ g.erase.flat ≠ [])
    (hd : (∀ e, ¬Faulty w e) ∨ ¬Api.isDelete o) :
    ∃ (H' : Nat) (g' : Gt K V H'), H' ≤ H + 1 ∧ (g'.due ≤ g.due + opDue H o ∧
      ((∀ k x, o ≠ .patchByKey k x) → (∀ e, (step P.cmp P.τ fuel o w).1 ≠ .ok (.done true, e)) → g'.due = g.due)) ∧ Rest P w T R g' (step P.cmp P.τ fuel o w).2 := by
  have same : ∀ {w'}, Same P w T R g w' → ∃ (H' : Nat) (g' : Gt K V H'), H' ≤ H + 1 ∧ (g'.due ≤ g.due + opDue H o ∧
      ((∀ k x, o ≠ .patchByKey k x) → (∀ e, (step P.cmp P.τ fuel o w).1 ≠ .ok (.done true, e)) → g'.due = g.due)) ∧ Rest P w T R g' w' := by
    rintro w' ⟨g', h1, h2⟩
    exact ⟨H, g', by omega, ⟨by rw [h1.due hr.odds]; omega, fun _ _ => h1.due hr.odds⟩, h2⟩
  have now : ∀ {s w' x}, Now P w T R g (opDue H o) s w' → ((∀ k x, o ≠ .patchByKey k x) → x.1 ≠ .done true → Same P w T R g w') → step P.cmp P.τ fuel o w = (.ok x, w') →
      ∃ (H' : Nat) (g' : Gt K V H'), H' ≤ H + 1 ∧ (g'.due ≤ g.due + opDue H o ∧
      ((∀ k x, o ≠ .patchByKey k x) → (∀ e, (step P.cmp P.τ fuel o w).1 ≠ .ok (.done true, e)) → g'.due = g.due)) ∧ Rest P w T R g' w' := by
    rintro s w' x (⟨-, h⟩ | ⟨H', g', h1, -, h2, h3⟩) hs hx
    · exact same h
    · by_cases h : (∀ k x, o ≠ .patchByKey k x) ∧ x.1 ≠ .done true
      · exact same (hs h.1 h.2)
      · exact ⟨H', g', h1, ⟨h2.2, fun k1 k2 => absurd ⟨k1, fun h => k2 x.2 (by rw [hx, ← h])⟩ h⟩, h3⟩
  have read : ReadPost P w T R g o (step P.cmp P.τ fuel o w) → ∃ (H' : Nat) (g' : Gt K V H'), H' ≤ H + 1 ∧ (g'.due ≤ g.due + opDue H o ∧
      ((∀ k x, o ≠ .patchByKey k x) → (∀ e, (step P.cmp P.τ fuel o w).1 ≠ .ok (.done true, e)) → g'.due = g.due)) ∧ Rest P w T R g' (step P.cmp P.τ fuel o w).2 := by
    intro h
    rcases h.cases with ⟨x, w', e1, -, h1⟩ | ⟨x, w', e1, -, h1⟩ <;> have := same h1 <;> rw [e1] at this ⊢ <;> exact this
  have write : WritePost P w T R g o (step P.cmp P.τ fuel o w) → ∃ (H' : Nat) (g' : Gt K V H'), H' ≤ H + 1 ∧ (g'.due ≤ g.due + opDue H o ∧
      ((∀ k x, o ≠ .patchByKey k x) → (∀ e, (step P.cmp P.τ fuel o w).1 ≠ .ok (.done true, e)) → g'.due = g.due)) ∧ Rest P w T R g' (step P.cmp P.τ fuel o w).2 := by
    intro h
    rcases h.cases with ⟨x, w', e1, -, h1, h2⟩ | ⟨x, w', e1, -, h1⟩
    · have := now h1 h2 e1; rw [e1] at this ⊢; exact this
    · have := same h1; rw [e1] at this ⊢; exact this
  have del : ∀ {safe}, Api.isDelete o → DelPost P w T R g o safe (step P.cmp P.τ fuel o w) → ∃ (H' : Nat) (g' : Gt K V H'), H' ≤ H + 1 ∧ (g'.due ≤ g.due + opDue H o ∧
      ((∀ k x, o ≠ .patchByKey k x) → (∀ e, (step P.cmp P.τ fuel o w).1 ≠ .ok (.done true, e)) → g'.due = g.due)) ∧ Rest P w T R g' (step P.cmp P.τ fuel o w).2 := by
    intro safe ho h
    replace hd := hd.resolve_right fun h => h ho
    rcases h.cases with ⟨x, w', e1, ⟨h0, h1, h2⟩ | ⟨e, -, h1, -⟩⟩ | ⟨x, w', e1, ⟨h1, -⟩ | ⟨-, h1⟩⟩
    · have := now h1 (x := x) (fun _ k => h2 fun h3 => k (by
        rw [h3] at h0
        obtain ⟨y, _ | _⟩ := x
        · exact h0
        · exact h0.elim)) e1
      rw [e1] at this ⊢; exact this
    · exact absurd h1 (hd _)
    · exact absurd h1 (hd _)
    · have := same h1; rw [e1] at this ⊢; exact this
  cases o with
  | put k x => exact write (put_run hr hf k x (hk k x rfl))
  | getByKey k => exact read (getByKey_run hr (by omega) k)
  | getByIndex i => exact read (getByIndex_run hr (by omega) i)
  | patchByKey k x => exact write (patchByKey_run hr (by omega) k x)
  | patchByIndex i x => exact write (patchByIndex_run hr (by omega) i x)
  | deleteByKey k => exact del trivial (deleteByKey_run hr hf k)
  | deleteByIndex i => exact del trivial (deleteByIndex_run hr hf i)
  | bisectLeft k => exact read (bisectLeft_run hr (by omega) k)
  | bisectRight k => exact read (bisectRight_run hr (by omega) k)
  | len => exact read (len_run hr fuel)
  | validate => exact read (validate_run hr (by omega))

end
end SM.BT

namespace SM.Props

open BT Spec
open Api (Pre)

section
variable {K V : Type} {S : Setup K V} {fuel : Nat} {cs : Calls K V} {t : TreeId} {v : Env} {r : Ref} {l : List (K × V)} {d : Nat}

/-- By how many an operation may raise the number of nodes to be written, on a map with `d + 1` levels of nodes: Put the nodes on the way to a leaf, as many
again if all of them are split, and a new root; Patch the nodes on the way; a deletion these and a neighbour of one of them; the others none. -/
def mostWrites (d : Nat) : Op K V → Nat
  | .put _ _ => 2 * d + 3
  | .patchByKey _ _ | .patchByIndex _ _ => d + 1
  | .deleteByKey _ | .deleteByIndex _ => d + 1 + min d 1
  | _ => 0

/-- Flush would succeed, calling PutNode `n` times. -/
def Costs (S : Setup K V) (fuel : Nat) (w : World K V) (t : TreeId) (p : Bool) (v : Env) (n : Nat) : Prop :=
  (∃ r, (S.run fuel w (.flush t p) v).1 = .ok (.loc r)) ∧ (S.see fuel w (.flush t p) v).puts = n

theorem costs_due {w : World K V} {a b : List (Ent K V)} {e : Ent K V} {LK : Multiset (Ref × DiskNode K V)} {p : Bool} {n : Nat} (hs : Scene w (a ++ e :: b) LK)
    (hP : e.P = S.cfg t) (hf : e.H < fuel) (h : Costs S fuel w t p v n) : n = e.g.due := by
  obtain ⟨⟨r, h1⟩, rfl⟩ := h
  have hτ : e.P.τ = t := by rw [hP, S.named]
  have hok : (BT.flush S.size e.P.τ fuel p (w.using v)).1 = .ok r := by
    rw [hτ]
    rw [Setup.run, exec, reply] at h1
    rcases hb : BT.flush S.size t fuel p (w.using v) with ⟨_ | x | _, w'⟩ <;> rw [hb] at h1 <;> cases h1
    rfl
  have := (hs.using v).focus.flush_puts hf hok
  rw [hτ] at this
  show (reply _ _ _).2.env.puts - (w.using v).env.puts = _
  rw [reply_world, this]
  omega

/-- The map a call is made on. -/
theorem on_scene {c : Api.Call K V} (h : Hist S fuel (cs ++ [(c, v)])) (hc : c.on = some t) :
    ∃ s a e b LK m, At S fuel cs s ∧ Show S.cfg cs.length (S.now fuel cs) s (a ++ e :: b) LK ∧ e.P = S.cfg t ∧ Pre S.api v.faults s c ∧ s.maps t = some m ∧
      s.sound = true ∧ Rep e m := by
  obtain ⟨h0, s, s', m, h1, h2, h3, -⟩ := Hist.call h hc
  obtain ⟨L, LK, hS⟩ := h1.inv.shows h2
  obtain ⟨e, he, rfl⟩ := hS.only t m h3
  obtain ⟨m', h4, h5⟩ := hS.rep e he
  rw [h3] at h4
  cases h4
  have hP := hS.cfg e he
  obtain ⟨a, b, rfl⟩ := List.append_of_mem he
  exact ⟨s, a, e, b, LK, m, h1, hS, hP, legal_one h.legal h1, h3, h2, h5⟩

theorem op_scene {o : Op K V} (h : Hist S fuel (cs ++ [(.op t o, v)])) (hv : v.CanRead ∨ ¬Api.isDelete o) :
    ∃ a e e' b LK LK', Scene (S.now fuel cs) (a ++ e :: b) LK ∧ Scene (S.now fuel (cs ++ [(.op t o, v)])) (a ++ e' :: b) LK' ∧ e.P = S.cfg t ∧ e'.P = S.cfg t ∧
      e.H < fuel ∧ e'.H ≤ e.H + 1 ∧ e'.H < fuel ∧ e'.g.due ≤ e.g.due + opDue e.H o ∧
      ((∀ k x, o ≠ .patchByKey k x) → (∀ x, (S.run fuel (S.now fuel cs) (.op t o) v).1 ≠ .ok (.ans (.done true, x))) → e'.g.due = e.g.due) := by
  have hfu := h.enough t
  rw [List.length_append, List.length_singleton] at hfu
  obtain ⟨s, a, e, b, LK, m, -, hS, hP, hp, hm, hs, hrep⟩ := on_scene h rfl
  have hH := hS.high e (by simp)
  have hk : ∀ k x, o = .put k x → e.P.Valid k ∨ e.g.erase.flat ≠ [] := by
    rintro k x rfl
    simp only [Pre, hs, if_true] at hp
    obtain ⟨m', h1, h2⟩ := hp
    rw [hm] at h1
    cases h1
    rw [hP, ← hrep.items]
    exact h2
  have hr := (hS.using v).scene.focus
  obtain ⟨H', g', h1, ⟨h2, h5⟩, h3⟩ := hr.op (fuel := fuel) (by rw [hP]; omega) o hk (by
    refine hv.imp_left ?_
    rintro ⟨c1, c2⟩ x (⟨-, n, hx⟩ | ⟨-, n, hx⟩)
    · exact absurd hx (by simp [World.using, c1])
    · exact absurd hx (by simp [World.using, c2]))
  have hw : S.now fuel (cs ++ [(.op t o, v)]) = (step e.P.cmp e.P.τ fuel o ((S.now fuel cs).using v)).2 := by
    rw [hP, S.named]
    exact after_one.trans reply_world
  rw [← hw] at h3
  obtain ⟨SP, h4, -⟩ := (hS.using v).scene.back h3 h3.I.evo.others
  refine ⟨a, e, _, b, LK, LK, hS.scene, h4, hP, hP, by omega, h1, by simp only; omega, h2, fun k1 k2 => h5 k1 fun x hx => k2 x ?_⟩
  rw [hP, S.named] at hx
  show (reply .ans (step (S.cfg t).cmp t fuel o) ((S.now fuel cs).using v)).1 = _
  rcases hq : step (S.cfg t).cmp t fuel o ((S.now fuel cs).using v) with ⟨y, w'⟩
  rw [hq] at hx
  obtain rfl : y = _ := hx
  rw [reply_ok hq]

/-- C60: on a map with `d + 1` levels of nodes an operation raises the number of PutNode calls that Flush makes by at most `2 d + 3` if it is a Put, `d + 1`
if a Patch, `d + 2` if a deletion (`1` if the root is a leaf), and else not at all; whatever the callbacks answer meanwhile, but that no deletion may fail in reading. -/
theorem C60_writes {o : Op K V} {p p' : Bool} {v1 v2 : Env} {n n' : Nat} (h : Hist S fuel (cs ++ [(.op t o, v)])) (hv : v.CanRead ∨ ¬Api.isDelete o)
    (hd : Balanced (S.now fuel cs) t (S.cfg t).max d) (h1 : Costs S fuel (S.now fuel cs) t p v1 n) (h2 : Costs S fuel (S.now fuel (cs ++ [(.op t o, v)])) t p' v2 n') :
    n' ≤ n + mostWrites d o := by
  obtain ⟨a, e, e', b, LK, LK', k1, k2, k3, k4, k5, k6, k7, k8, -⟩ := op_scene h hv
  rw [costs_due k1 k3 k5 h1, costs_due k2 k4 k7 h2]
  have hb := k1.balanced (e := e) (by simp)
  rw [k3, S.named] at hb
  cases hd.unique hb
  refine k8.trans (Nat.add_le_add_left ?_ _)
  cases o <;> simp only [opDue, mostWrites] <;> omega

/-- C60: an operation that does not answer `true` (a Put of a key that is there, a deletion of one that is not, an index out of range, a key that is rejected, a reading one)
does not raise it; PatchByKey does, even if there is nothing to patch. -/
theorem C60_refused {o : Op K V} {p p' : Bool} {v1 v2 : Env} {n n' : Nat} (h : Hist S fuel (cs ++ [(.op t o, v)])) (hv : v.CanRead ∨ ¬Api.isDelete o)
    (ho : ∀ k x, o ≠ .patchByKey k x) (hx : ∀ e, (S.run fuel (S.now fuel cs) (.op t o) v).1 ≠ .ok (.ans (.done true, e)))
    (h1 : Costs S fuel (S.now fuel cs) t p v1 n) (h2 : Costs S fuel (S.now fuel (cs ++ [(.op t o, v)])) t p' v2 n') : n' = n := by
  obtain ⟨a, e, e', b, LK, LK', k1, k2, k3, k4, k5, k6, k7, -, k8⟩ := op_scene h hv
  rw [costs_due k1 k3 k5 h1, costs_due k2 k4 k7 h2, k8 ho hx]

/-- C60: and the number of levels by at most one. -/
theorem C60_levels {o : Op K V} {d' : Nat} (h : Hist S fuel (cs ++ [(.op t o, v)])) (hv : v.CanRead ∨ ¬Api.isDelete o)
    (hd : Balanced (S.now fuel cs) t (S.cfg t).max d) (hd' : Balanced (S.now fuel (cs ++ [(.op t o, v)])) t (S.cfg t).max d') : d' ≤ d + 1 := by
  obtain ⟨a, e, e', b, LK, LK', k1, k2, k3, k4, k5, k6, k7, k8, -⟩ := op_scene h hv
  have hb := k1.balanced (e := e) (by simp)
  have hb' := k2.balanced (e := e') (by simp)
  rw [k3, S.named] at hb
  rw [k4, S.named] at hb'
  rw [hd.unique hb, hd'.unique hb']
  exact k6

/-- The calls on a map that leave to Flush what there was to be written. -/
def Unwriting : Api.Call K V → Prop
  | .op _ o => mostWrites 0 o = 0
  | .purge _ _ | .prune _ | .layout _ | .dimensions _ | .location _ | .dump _ _ => True
  | _ => False

theorem call_scene {c : Api.Call K V} (h : Hist S fuel (cs ++ [(c, v)])) (hc : c.on = some t) (hq : Unwriting c ∨ ∃ i, c = .touchItem t i) :
    ∃ a e e' b LK, Scene (S.now fuel cs) (a ++ e :: b) LK ∧ Scene (S.now fuel (cs ++ [(c, v)])) (a ++ e' :: b) LK ∧ e.P = S.cfg t ∧ e'.P = S.cfg t ∧
      e.H < fuel ∧ e'.H = e.H ∧ e.g.due ≤ e'.g.due ∧ (Unwriting c → e'.g.due = e.g.due) ∧ e'.g.due ≤ e.g.due + (e.H + 1) := by
  have hfu := h.enough t
  rw [List.length_append, List.length_singleton] at hfu
  obtain ⟨s, a, e, b, LK, m, -, hS, hP, hp, hm, hs, hrep⟩ := on_scene h hc
  have hH := hS.high e (by simp)
  have hτ : e.P.τ = t := by rw [hP, S.named]
  have hr := (hS.using v).scene.focus
  suffices hg : ∃ w0 T, ∃ g' : Gt K V e.H, e.g.due ≤ g'.due ∧ (Unwriting c → g'.due = e.g.due) ∧ g'.due ≤ e.g.due + (e.H + 1) ∧
      (∀ σ, σ ≠ e.P.τ → (S.now fuel (cs ++ [(c, v)])).trees σ = ((S.now fuel cs).using v).trees σ) ∧
      Rest e.P w0 T (whole (a ++ b) + pagesB LK) g' (S.now fuel (cs ++ [(c, v)])) by
    obtain ⟨w0, T, g', h1, h2, h3, h4, h5⟩ := hg
    obtain ⟨SP, k1, -⟩ := (hS.using v).scene.back h5 h4
    exact ⟨a, e, _, b, LK, hS.scene, k1, hP, hP, by omega, rfl, h1, h2, h3⟩
  have sim : ∀ {w' : World K V} {T} {g' : Gt K V e.H}, Sim e.P e.g g' → Rest e.P ((S.now fuel cs).using v) T (whole (a ++ b) + pagesB LK) g' w' →
      ∃ w0 T, ∃ g' : Gt K V e.H, e.g.due ≤ g'.due ∧ (Unwriting c → g'.due = e.g.due) ∧ g'.due ≤ e.g.due + (e.H + 1) ∧
      (∀ σ, σ ≠ e.P.τ → w'.trees σ = ((S.now fuel cs).using v).trees σ) ∧ Rest e.P w0 T (whole (a ++ b) + pagesB LK) g' w' := fun h1 h2 =>
    ⟨_, _, _, (h1.due hr.odds).ge, fun _ => h1.due hr.odds, (h1.due hr.odds).le.trans (Nat.le_add_right _ _), h2.I.evo.others, h2⟩
  have hw : S.now fuel (cs ++ [(c, v)]) = (exec S.size S.cfg fuel c ((S.now fuel cs).using v)).2 := after_one
  cases c with
  | op t' o =>
    cases hc
    have hk : mostWrites 0 o = 0 := hq.resolve_right (by rintro ⟨_, h⟩; cases h)
    have hw : S.now fuel (cs ++ [(.op t o, v)]) = (step e.P.cmp e.P.τ fuel o ((S.now fuel cs).using v)).2 := by
      rw [hw, hτ, hP]; exact reply_world
    have read : ReadPost e.P ((S.now fuel cs).using v) (e.SP + (e.pages + (whole (a ++ b) + pagesB LK).2.2.1), e.fails) (whole (a ++ b) + pagesB LK) e.g o (step e.P.cmp e.P.τ fuel o ((S.now fuel cs).using v)) →
        ∃ w', S.now fuel (cs ++ [(.op t o, v)]) = w' ∧ Same e.P ((S.now fuel cs).using v) (e.SP + (e.pages + (whole (a ++ b) + pagesB LK).2.2.1), e.fails) (whole (a ++ b) + pagesB LK) e.g w' := fun h => by
      rcases h.cases with ⟨x, w', e1, -, h1⟩ | ⟨x, w', e1, -, h1⟩ <;> rw [e1] at hw <;> exact ⟨_, hw, h1⟩
    suffices hx : ∃ w', S.now fuel (cs ++ [(.op t o, v)]) = w' ∧ Same e.P ((S.now fuel cs).using v) (e.SP + (e.pages + (whole (a ++ b) + pagesB LK).2.2.1), e.fails) (whole (a ++ b) + pagesB LK) e.g w' by
      obtain ⟨w', h0, g', h1, h2⟩ := hx
      rw [h0]
      exact sim h1 h2
    cases o with
    | put k x => simp [mostWrites] at hk
    | getByKey k => exact read (getByKey_run hr (by omega) k)
    | getByIndex i => exact read (getByIndex_run hr (by rw [hP]; omega) i)
    | patchByKey k x => simp [mostWrites] at hk
    | patchByIndex i x => simp [mostWrites] at hk
    | deleteByKey k => simp [mostWrites] at hk
    | deleteByIndex i => simp [mostWrites] at hk
    | bisectLeft k => exact read (bisectLeft_run hr (by rw [hP]; omega) k)
    | bisectRight k => exact read (bisectRight_run hr (by rw [hP]; omega) k)
    | len => exact read (len_run hr fuel)
    | validate => exact read (validate_run hr (by omega))
  | flush => rcases hq with h | ⟨_, h⟩ <;> cases h
  | touch => rcases hq with h | ⟨_, h⟩ <;> cases h
  | discard => rcases hq with h | ⟨_, h⟩ <;> cases h
  | new => cases hc
  | old => cases hc
  | evict => cases hc
  | limits => cases hc
  | restart => cases hc
  | purge t' full =>
    cases hc
    replace hw : S.now fuel (cs ++ [(.purge t full, v)]) = (purge e.P.τ fuel full ((S.now fuel cs).using v)).2 := by rw [hw, hτ]; exact reply_world
    rcases (purge_run hr (by omega : e.H < fuel) full).cases with ⟨_, w', e1, -, g', h1, -, -, h2⟩ | ⟨x, w', e1, -, -, -, rfl⟩ <;> rw [hw, e1]
    · exact sim h1 h2
    · exact sim (.refl _) hr
  | touchItem t' i =>
    cases hc
    replace hw : S.now fuel (cs ++ [(.touchItem t i, v)]) = (touchItem e.P.cmp e.P.τ fuel i ((S.now fuel cs).using v)).2 := by rw [hw, hτ, hP]; exact reply_world
    rcases (touchItem_run hr (by rw [hP]; omega : e.H + e.P.max < fuel) i).cases with ⟨_, w', e1, ⟨-, -, rfl⟩ | ⟨x, l, y, g', -, -, -, -, h4, h7, h5, h6, -⟩⟩ | ⟨x, w', e1, -, g', h1, h2⟩ <;>
      rw [hw, e1]
    · exact sim (.refl _) hr
    · refine ⟨_, _, g', ?_, fun h => h.elim, h7.2, h5.I.evo.others, h5⟩
      have k1 := due_pages e.P ⟨none, true⟩ e.g hr.odds
      have k2 := due_pages e.P ⟨none, true⟩ g' h5.odds
      have k3 := Multiset.card_le_card h6
      rw [h4.erase] at k2
      omega
    · exact sim h1 h2
  | prune t' =>
    cases hc
    replace hw : S.now fuel (cs ++ [(.prune t, v)]) = (prune e.P.τ ((S.now fuel cs).using v)).2 := by rw [hw, hτ]; exact reply_world
    simp only [Pre, hs, if_true] at hp
    obtain ⟨m', h1, h2⟩ := hp
    rw [hm] at h1
    cases h1
    rcases (prune_run hr.I (hrep.fails ▸ h2)).cases with ⟨_, w', e1, l, hl, rfl, hI⟩ | ⟨x, w', e1, -, -, pre, r, post, -, rfl, SP, -, hI⟩ <;> rw [hw, e1]
    · refine ⟨_, _, e.g, le_rfl, fun _ => rfl, Nat.le_add_right _ _, ?_, hI, hr.clean, hr.odds, hr.occ, hr.ord⟩
      intro σ hσ
      rw [setT_trees, upd_ne _ _ hσ]; rfl
    · exact ⟨_, _, e.g, le_rfl, fun _ => rfl, Nat.le_add_right _ _, fun _ _ => rfl, hI, hr.clean, hr.odds, hr.occ, hr.ord⟩
  | layout t' =>
    cases hc
    replace hw : S.now fuel (cs ++ [(.layout t, v)]) = (fetchLayoutReport e.P.cmp e.P.τ fuel ((S.now fuel cs).using v)).2 := by rw [hw, hτ, hP]; exact reply_world
    rcases (fetchLayoutReport_run hr (by omega : e.H < fuel)).cases with ⟨_, w', e1, -, g', ⟨h1, -⟩, h2⟩ | ⟨x, w', e1, -, g', h1, h2⟩ <;> rw [hw, e1] <;> exact sim h1 h2
  | dimensions t' =>
    cases hc
    replace hw : S.now fuel (cs ++ [(.dimensions t, v)]) = (fetchDimensionsReport e.P.cmp e.P.τ fuel ((S.now fuel cs).using v)).2 := by rw [hw, hτ, hP]; exact reply_world
    rcases (fetchDimensionsReport_run hr (by omega : e.H < fuel)).cases with ⟨_, w', e1, -, g', h1, h2⟩ | ⟨x, w', e1, -, g', h1, h2⟩ <;> rw [hw, e1] <;> exact sim h1 h2
  | location t' =>
    cases hc
    replace hw : S.now fuel (cs ++ [(.location t, v)]) = (fetchLocation e.P.τ ((S.now fuel cs).using v)).2 := by rw [hw, hτ]; exact reply_world
    rw [hw, fetchLocation_run hr]
    exact sim (.refl _) hr
  | dump t' cb =>
    cases hc
    replace hw : S.now fuel (cs ++ [(.dump t cb, v)]) = (dump e.P.cmp cb e.P.τ fuel ((S.now fuel cs).using v)).2 := by rw [hw, hτ, hP]; exact reply_world
    rcases (dump_run (cb := cb) hr (by omega : e.H < fuel)).cases with ⟨d, w', e1, -, g', h1, h2⟩ | ⟨_, _, _, h0⟩
    · rw [hw, e1]
      exact sim h1 h2
    · exact h0.elim

/-- C60: reading, reporting, Purge and Prune neither raise nor lower it, even if they fail. -/
theorem C60_unchanged {c : Api.Call K V} {p p' : Bool} {v1 v2 : Env} {n n' : Nat} (h : Hist S fuel (cs ++ [(c, v)])) (hc : c.on = some t) (hq : Unwriting c)
    (h1 : Costs S fuel (S.now fuel cs) t p v1 n) (h2 : Costs S fuel (S.now fuel (cs ++ [(c, v)])) t p' v2 n') : n' = n := by
  obtain ⟨a, e, e', b, LK, k1, k2, k3, k4, k5, k6, -, k7, -⟩ := call_scene h hc (.inl hq)
  rw [costs_due k1 k3 k5 h1, costs_due k2 k4 (by omega) h2, k7 hq]

/-- C60: TouchItem raises it by at most the nodes on the way to a leaf. -/
theorem C60_touchItem {i : Nat} {p p' : Bool} {v1 v2 : Env} {n n' : Nat} (h : Hist S fuel (cs ++ [(.touchItem t i, v)]))
    (hd : Balanced (S.now fuel cs) t (S.cfg t).max d) (h1 : Costs S fuel (S.now fuel cs) t p v1 n) (h2 : Costs S fuel (S.now fuel (cs ++ [(.touchItem t i, v)])) t p' v2 n') :
    n ≤ n' ∧ n' ≤ n + (d + 1) := by
  obtain ⟨a, e, e', b, LK, k1, k2, k3, k4, k5, k6, k7, -, k8⟩ := call_scene (c := .touchItem t i) h rfl (.inr ⟨i, rfl⟩)
  rw [costs_due k1 k3 k5 h1, costs_due k2 k4 (by omega) h2]
  have hb := k1.balanced (e := e) (by simp)
  rw [k3, S.named] at hb
  cases hd.unique hb
  exact ⟨k7, k8⟩

/-- C60: after an operation on a map that is stored. -/
theorem C60_writes_stored {o : Op K V} {p : Bool} {v2 : Env} {n : Nat} (hs : Stored S fuel cs t r l) (h : Hist S fuel (cs ++ [(.op t o, v)]))
    (hv : v.CanRead ∨ ¬Api.isDelete o) (hd : Balanced (S.now fuel cs) t (S.cfg t).max d)
    (h2 : Costs S fuel (S.now fuel (cs ++ [(.op t o, v)])) t p v2 n) : n ≤ mostWrites d o := by
  have h1 : Costs S fuel (S.now fuel cs) t false v 0 := ⟨⟨r, (C30_flush_is_complete hs v).1⟩, (C30_flush_is_complete hs v).2.1⟩
  have := C60_writes h hv hd h1 h2
  omega

/-- C60: what a failed Flush has written the next one need not write. -/
theorem C60_failed_flush {p p1 p2 : Bool} {v1 v2 : Env} {n n' : Nat} {e : Err} (h : Hist S fuel (cs ++ [(.flush t p, v)]))
    (he : (S.run fuel (S.now fuel cs) (.flush t p) v).1 = .err e)
    (h1 : Costs S fuel (S.now fuel cs) t p1 v1 n) (h2 : Costs S fuel (S.now fuel (cs ++ [(.flush t p, v)])) t p2 v2 n') :
    n' + (S.see fuel (S.now fuel cs) (.flush t p) v).puts = n + if e = .putNode then 1 else 0 := by
  have hfu := h.enough t
  rw [List.length_append, List.length_singleton] at hfu
  obtain ⟨s, a, E, b, LK, m, -, hS, hP, -⟩ := on_scene h rfl
  have hH := hS.high E (by simp)
  have hτ : E.P.τ = t := by rw [hP, S.named]
  rw [Setup.run, exec, reply] at he
  have hok : (BT.flush S.size E.P.τ fuel p ((S.now fuel cs).using v)).1 = .err e := by
    rw [hτ]
    rcases hb : BT.flush S.size t fuel p ((S.now fuel cs).using v) with ⟨_ | x | _, w'⟩ <;> rw [hb] at he <;> cases he
    rfl
  obtain ⟨T', g', k1, k2, k3, hge⟩ := (hS.using v).scene.focus.flush_fails (by omega) hok
  have hw : S.now fuel (cs ++ [(.flush t p, v)]) = (BT.flush S.size E.P.τ fuel p ((S.now fuel cs).using v)).2 := by
    rw [hτ]
    exact after_one.trans reply_world
  rw [← hw] at k1 k2
  obtain ⟨SP, h4, -⟩ := (hS.using v).scene.back k2 k1
  have hp : (S.see fuel (S.now fuel cs) (.flush t p) v).puts = (S.now fuel (cs ++ [(.flush t p, v)])).env.puts - v.puts := by
    rw [hw, hτ]
    show (reply _ _ _).2.env.puts - _ = _
    rw [reply_world]
    rfl
  have hm : misses e = if e = .putNode then 1 else 0 := by cases e <;> rfl
  rw [costs_due hS.scene hP (by omega) h1, costs_due h4 hP (by simp only; omega) h2, hp, ← hm]
  rw [← hw] at k3 hge
  replace k3 : g'.due + _ = v.puts + _ + _ := k3
  replace hge : v.puts ≤ _ := hge
  show g'.due + _ = _
  omega

theorem newPlaces_costs {p : Bool} (h : Opened S fuel cs t) (hv : Env.NewPlaces v cs) : ∃ n, Costs S fuel (S.now fuel cs) t p v n := by
  have hf : ∀ t, (S.cfg t).max + (cs.length + 1) + 2 < fuel := fun t => by have := h.enough t; simpa using this
  obtain ⟨h0, s, s', m, h1, h2, h3, -⟩ := Hist.call h rfl
  exact ⟨_, C36_retry_succeeds (h0.snoc h1 hf (by simp only [Pre, h2, if_true]; exact ⟨m, h3⟩) trivial) hv, rfl⟩

/-- C60: after several operations on a map that never has more than `d + 1` levels, no two calls of PutNode returning the same place. -/
theorem C60_writes_series {p p' : Bool} {v' : Env} {os : List (Op K V × Env)} {n n' : Nat} (hn : Env.NewPlaces v' (cs ++ os.map fun x => (.op t x.1, x.2)))
    (h : Opened S fuel (cs ++ os.map fun x => (.op t x.1, x.2)) t) (hv : ∀ x ∈ os, x.2.CanRead ∨ ¬Api.isDelete x.1)
    (hd : ∀ a b, os = a ++ b → ∃ e ≤ d, Balanced (S.now fuel (cs ++ a.map fun x => (.op t x.1, x.2))) t (S.cfg t).max e)
    (h1 : Costs S fuel (S.now fuel cs) t p v' n) (h2 : Costs S fuel (S.now fuel (cs ++ os.map fun x => (.op t x.1, x.2))) t p' v' n') :
    n' ≤ n + (os.map fun x => mostWrites d x.1).sum := by
  induction os using List.reverseRecOn generalizing n' p' with
  | nil =>
    rw [List.map_nil, List.append_nil] at h2 h
    obtain ⟨s, a, e, b, LK, m, -, hS, hP, -⟩ := on_scene h rfl
    have hH := hS.high e (by simp)
    have hfu := h.enough t
    rw [List.length_append, List.length_singleton] at hfu
    rw [costs_due hS.scene hP (by omega) h1, costs_due hS.scene hP (by omega) h2]
    omega
  | append_singleton os x ih =>
    rw [List.map_append, List.map_singleton, ← List.append_assoc] at h2 h hn
    have hh := (Hist.last h (by simp)).1
    obtain ⟨h0, s, s', m, k1, k2, k3, -⟩ := hh.call rfl
    have ho : Opened S fuel (cs ++ os.map fun x => (.op t x.1, x.2)) t :=
      h0.snoc k1 (fun t => by have := hh.enough t; rwa [List.length_append, List.length_singleton] at this) (by simp only [Pre, k2, if_true]; exact ⟨m, k3⟩) trivial
    have hn' : Env.NewPlaces v' (cs ++ os.map fun x => (.op t x.1, x.2)) := ⟨hn.packs, fun k hk => by
      obtain ⟨q, a1, a2, a3⟩ := hn.place k hk
      exact ⟨q, a1, a2, fun y hy => a3 y (by rw [List.mem_append]; exact .inl hy)⟩⟩
    obtain ⟨n1, hn1⟩ := newPlaces_costs (p := false) ho hn'
    obtain ⟨e, he, hb⟩ := hd os [x] rfl
    have hw := C60_writes hh (hv x (by simp)) hb hn1 h2
    have := ih hn' ho (fun y hy => hv y (by simp [hy])) (fun a b hab => hd a (b ++ [x]) (by rw [hab, List.append_assoc])) hn1
    have hm : mostWrites e x.1 ≤ mostWrites d x.1 := by
      cases x.1 <;> simp only [mostWrites] <;> omega
    rw [List.map_append, List.map_singleton, List.sum_append, List.sum_singleton]
    omega

/-- A deletion after `storeHist`, where map 0 is stored and has three levels. -/
theorem storeHist_deleted (k : Int) : Hist sampleSetup 60 (storeHist ++ [(.op 0 (.deleteByIndex k), calmEnv)]) :=
  storeHist_then (by simp only [List.mem_cons, List.not_mem_nil, or_false, forall_eq]; exact ⟨rfl, .of_noFault calmEnv_works.no⟩) (by simp)

example {k : Int} {n : Nat} (h : Costs sampleSetup 60 (sampleSetup.now 60 (storeHist ++ [(.op 0 (.deleteByIndex k), calmEnv)])) 0 false (putEnv 11) n) : n ≤ 4 := by
  obtain ⟨r, l, hs⟩ := storeHist_stored
  exact C60_writes_stored (o := .deleteByIndex k) hs (storeHist_deleted k) (.inl calmEnv_works.1) storeHist_deep h
/-- So many it may be. -/
example : (sampleSetup.see 60 (sampleSetup.now 60 (storeHist ++ [(.op 0 (.deleteByIndex 3), calmEnv)])) (.flush 0 false) (putEnv 11)).puts = 4 := by decide +kernel
example {d : Nat} (h : Balanced (sampleSetup.now 60 (storeHist ++ [(.op 0 (.deleteByIndex 3), calmEnv)])) 0 (sampleSetup.cfg 0).max d) : d ≤ 3 :=
  C60_levels (o := .deleteByIndex 3) (storeHist_deleted 3) (.inl calmEnv_works.1) storeHist_deep h

/-- Put of a key that is there has nothing written, but PatchByKey of one that is not has three nodes. -/
theorem storeHist_putAgain (x : Nat) : Hist sampleSetup 60 (storeHist ++ [(.op 0 (.put 50 x), calmEnv)]) :=
  storeHist_call (c := .op 0 (.put 50 x)) ⟨rfl, by show 50 < 1000; omega⟩ calmEnv (.of_noFault calmEnv_works.no)
example {n n' : Nat} (h1 : Costs sampleSetup 60 (sampleSetup.now 60 storeHist) 0 false (putEnv 11) n)
    (h2 : Costs sampleSetup 60 (sampleSetup.now 60 (storeHist ++ [(.op 0 (.put 50 1), calmEnv)])) 0 false (putEnv 11) n') : n' = n :=
  C60_refused (o := .put 50 1) (storeHist_putAgain 1) (.inl calmEnv_works.1) (by simp) (fun e he => by
    have : doneOf (sampleSetup.run 60 (sampleSetup.now 60 storeHist) (.op 0 (.put 50 1)) calmEnv).1 = some (false, none) := by decide +kernel
    rw [he] at this
    cases this) h1 h2
example : (sampleSetup.see 60 (sampleSetup.now 60 (storeHist ++ [(.op 0 (.put 50 1), calmEnv)])) (.flush 0 false) (putEnv 11)).puts = 0 ∧
    (sampleSetup.see 60 (sampleSetup.now 60 (storeHist ++ [(.op 0 (.patchByKey 55 1), calmEnv)])) (.flush 0 false) (putEnv 11)).puts = 3 := by decide +kernel

/-- TouchItem then has three nodes written, and reading does not change that. -/
theorem storeHist_touched : Hist sampleSetup 60 (storeHist ++ [(.touchItem 0 3, calmEnv)] ++ [(.op 0 (.getByIndex 7), calmEnv)]) := by
  rw [List.append_assoc]
  exact storeHist_then (by simp only [List.cons_append, List.nil_append, List.mem_cons, List.not_mem_nil, or_false, forall_eq_or_imp, forall_eq]; exact ⟨⟨rfl, trivial⟩, rfl, trivial⟩) (by simp)
example {n n' : Nat} (h1 : Costs sampleSetup 60 (sampleSetup.now 60 storeHist) 0 false (putEnv 11) n)
    (h2 : Costs sampleSetup 60 (sampleSetup.now 60 (storeHist ++ [(.touchItem 0 3, calmEnv)])) 0 false (putEnv 11) n') : n ≤ n' ∧ n' ≤ n + 3 :=
  C60_touchItem (i := 3) (Hist.last storeHist_touched (by simp)).1 storeHist_deep h1 h2
example {n n' : Nat} (h1 : Costs sampleSetup 60 (sampleSetup.now 60 (storeHist ++ [(.touchItem 0 3, calmEnv)])) 0 false (putEnv 11) n)
    (h2 : Costs sampleSetup 60 (sampleSetup.now 60 (storeHist ++ [(.touchItem 0 3, calmEnv)] ++ [(.op 0 (.getByIndex 7), calmEnv)])) 0 true (putEnv 11) n') : n' = n :=
  C60_unchanged (c := .op 0 (.getByIndex 7)) storeHist_touched rfl rfl h1 h2
example : (sampleSetup.see 60 (sampleSetup.now 60 storeHist) (.flush 0 false) (putEnv 11)).puts = 0 ∧
    (sampleSetup.see 60 (sampleSetup.now 60 (storeHist ++ [(.touchItem 0 3, calmEnv)] ++ [(.op 0 (.getByIndex 7), calmEnv)])) (.flush 0 true) (putEnv 11)).puts = 3 := by decide +kernel

/-- Flush fails at the second of eleven nodes, and the next one has ten to write. -/
example {n n' : Nat} (h1 : Costs sampleSetup 60 (sampleSetup.now 60 (storeHist ++ [(.touch 0, calmEnv)])) 0 false (putEnv 11) n)
    (h2 : Costs sampleSetup 60 (sampleSetup.now 60 (storeHist ++ [(.touch 0, calmEnv)] ++ [(.flush 0 false, fullEnv)])) 0 false (putEnv 11) n') : n = 11 ∧ n' = 10 := by
  have h : Hist sampleSetup 60 (storeHist ++ [(.touch 0, calmEnv)] ++ [(.flush 0 false, fullEnv)]) := by
    rw [List.append_assoc]
    exact storeHist_then (by simp only [List.cons_append, List.nil_append, List.mem_cons, List.not_mem_nil, or_false, forall_eq_or_imp, forall_eq]; exact ⟨⟨rfl, trivial⟩, rfl, trivial⟩) (by simp)
  have := C60_failed_flush (e := .putNode) h (errOf_some (by decide +kernel)) h1 h2
  rw [show (sampleSetup.see 60 (sampleSetup.now 60 (storeHist ++ [(.touch 0, calmEnv)])) (.flush 0 false) fullEnv).puts = 2 by decide +kernel, if_pos rfl] at this
  have h3 := h1.2
  rw [show (sampleSetup.see 60 (sampleSetup.now 60 (storeHist ++ [(.touch 0, calmEnv)])) (.flush 0 false) (putEnv 11)).puts = 11 by decide +kernel] at h3
  omega

end
end SM.Props

import Verif.BTree.Open
import Verif.BTree.Still
import Verif.BTree.DumpProofs
import Verif.BTree.Leads
import Verif.Api

/-! Several trees at once, what is stored on disk, and the whole API against its specification. -/

namespace SM.BT

open Spec (at? below above find has rejects Agrees AgreesE Refused stepE Op Ans)

variable {K V : Type}

section
variable {P : Par K} {w0 : World K V} {T : Tot K V} {w : World K V} {ρ : Option Id}
  {R R' : B K V} {h H : Nat}

/-! ### What is stored -/

theorem Row.choose {α β : Type} {Q : α → β → Prop} {r : Row K α} (hq : ∀ c ∈ r.kids, ∃ d, Q c d) :
    ∃ rr : Row K (α × β), rr.map Prod.fst = r ∧ ∀ p ∈ rr.kids, Q p.1 p.2 := by
  obtain ⟨c0, cs⟩ := r
  simp only [Row.kids, List.mem_cons, forall_eq_or_imp] at hq
  obtain ⟨⟨d0, h0⟩, hq⟩ := hq
  suffices ∃ l : List (K × (α × β)), l.map (fun p => (p.1, p.2.1)) = cs ∧ ∀ p ∈ l, Q p.2.1 p.2.2 by
    obtain ⟨l, h1, h2⟩ := this
    refine ⟨⟨(c0, d0), l⟩, ?_, ?_⟩
    · simp only [Row.map, h1]
    · simp only [Row.kids, List.mem_cons, List.mem_map]
      rintro p (rfl | ⟨x, hx, rfl⟩)
      · exact h0
      · exact h2 x hx
  clear h0
  induction cs with
  | nil => exact ⟨[], rfl, by simp⟩
  | cons c cs ih =>
    simp only [List.map_cons, List.mem_cons, forall_eq_or_imp] at hq
    obtain ⟨⟨d, hd⟩, hq⟩ := hq
    obtain ⟨l, h1, h2⟩ := ih hq
    refine ⟨(c.1, (c.2, d)) :: l, by simp [h1], ?_⟩
    simp only [List.mem_cons, forall_eq_or_imp]
    exact ⟨hd, h2⟩

/-- A clean tree is stored. -/
theorem Gt.stored : ∀ {h : Nat} (t : Gt K V h), t.Clean → t.odds = 0 → t.st.isSome →
    ∃ d : Dt K V h, t.st = some d.ref ∧ d.erase = t.erase ∧ ∀ (P : Par K) (q : Pos), (bun P q t).2.2.1 = d.pages P q.root
  | 0, t, hc, hz, hs => by
      rcases t.cases0 with ⟨i, d, rfl⟩ | ⟨i, st, l, rfl⟩ | ⟨i, o, l, rfl⟩
      · exact ⟨d, rfl, by simp, fun P q => by rw [bun_unl]; simp [cellB, offB, pagesB]⟩
      · obtain ⟨r, rfl⟩ := Option.isSome_iff_exists.1 hs
        exact ⟨.leaf r l, rfl, rfl, fun P q => by rw [bun_leaf, leafB]; simp [cellB, lruB, ownPage, pageB, pages_leaf]⟩
      · simp at hz
  | h + 1, t, hc, hz, hs => by
      rcases t.casesS with ⟨i, d, rfl⟩ | ⟨i, st, r, rfl⟩ | ⟨i, o, r, rfl⟩
      · exact ⟨d, rfl, by simp, fun P q => by rw [bun_unl]; simp [cellB, offB, pagesB]⟩
      · obtain ⟨ref, rfl⟩ := Option.isSome_iff_exists.1 hs
        rw [Clean_inner] at hc
        rw [odds_inner] at hz
        have := Row.choose (r := r) (Q := fun c (d : Dt K V h) => c.st = some d.ref ∧ d.erase = c.erase ∧ ∀ (P : Par K) (q : Pos), (bun P q c).2.2.1 = d.pages P q.root)
          (fun c hm => Gt.stored c (hc c hm).1 (listSum_zero hz hm) ((hc c hm).2 rfl))
        obtain ⟨rr, rfl, h2⟩ := this
        refine ⟨.inner ref (rr.map Prod.snd), rfl, ?_, fun P q => ?_⟩
        · rw [erase_dinner, erase_inner]
          congr 1
          obtain ⟨c0, cs⟩ := rr
          simp only [Row.kids, List.mem_cons, List.mem_map, forall_eq_or_imp, forall_exists_index, and_imp, forall_apply_eq_imp_iff₂] at h2
          simp only [Row.map, h2.1.2.1, List.map_map]
          congr 1
          refine List.map_congr_left fun p hp => ?_
          simp [(h2.2 p hp).2.1]
        · have hd : (innerB P q i (some ref) ((rr.map Prod.fst).map Gt.kid) : B K V) =
              cellB (mkCell P q i (some ref) ((rr.map Prod.fst).map Gt.kid).body) + lruB P.ca i false +
                pageB (ref, mkDisk P q.root ((rr.map Prod.snd).kids.map Dt.cnt).sum (Row.disk ((rr.map Prod.snd).map Dt.kid))) := by
            have hcnt : ∀ p ∈ rr.kids, p.1.cnt = p.2.cnt := fun p hp => by rw [Gt.cnt, Dt.cnt, (h2 p hp).2.1]
            rw [innerB, ownPage_some]
            have e1 : Row.total ((rr.map Prod.fst).map Gt.kid) = ((rr.map Prod.snd).kids.map Dt.cnt).sum := by
              simp only [Row.total, Row.kids_map, List.map_map]
              congr 1
              exact List.map_congr_left fun p hp => hcnt p hp
            have e2 : (Row.disk ((rr.map Prod.fst).map Gt.kid) : DiskBody K V) = Row.disk ((rr.map Prod.snd).map Dt.kid) := by
              have hk : ∀ p ∈ rr.kids, p.1.kid.disk = p.2.kid.disk := fun p hp => by
                simp only [Kid.disk, Gt.kid, Dt.kid, (h2 p hp).1, hcnt p hp]
              obtain ⟨c0, cs⟩ := rr
              simp only [Row.kids, List.mem_cons, List.mem_map, forall_eq_or_imp, forall_exists_index, and_imp, forall_apply_eq_imp_iff₂] at hk
              simp only [Row.disk, Row.map, hk.1, List.map_map]
              congr 1
              refine List.map_congr_left fun p hp => ?_
              simp [hk.2 p hp]
            rw [e1, e2]
            rfl
          rw [bun_inner, hd, pages_inner]
          simp only [Prod.snd_add, Prod.fst_add, cellB_3, lruB_3, zero_add, pageB, Row.kids_map, List.map_map, Multiset.singleton_add]
          rw [← Multiset.singleton_add, ← Multiset.singleton_add]
          congr 1
          have : ∀ L : List (Gt K V h × Dt K V h), (∀ p ∈ L, p.1.st = some p.2.ref ∧ p.2.erase = p.1.erase ∧ ∀ (P : Par K) (q : Pos), (bun P q p.1).2.2.1 = p.2.pages P q.root) →
              (L.map (bun P (Pos.child i) ∘ Prod.fst)).sum.2.2.1 = (L.map (Dt.pages P false ∘ Prod.snd)).sum := by
            intro L hL
            induction L with
            | nil => rfl
            | cons p L ih =>
              simp only [List.mem_cons, forall_eq_or_imp] at hL
              simp only [List.map_cons, List.sum_cons, Prod.snd_add, Prod.fst_add, ih hL.2, Function.comp_apply, hL.1.2.2]
              rfl
          exact this _ h2
      · rw [odds_odInner] at hz
        simp at hz

theorem Dt.page (P : Par K) (b : Bool) (d : Dt K V h) : (d.ref, mkDisk P b d.cnt d.body) ∈ d.pages P b := by
  rw [Dt.pages_eq]; exact Multiset.mem_cons_self _ _

theorem Dt.body_leaf (ref : Ref) (l : List (K × V)) : (Dt.leaf ref l).body = .leaf l := rfl
theorem Dt.body_inner (ref : Ref) (r : Row K (Dt K V h)) : (Dt.inner ref r).body = Row.disk (r.map Dt.kid) := rfl

/-- Below the root no page claims to be one. -/
theorem Dt.pages_root {P : Par K} : ∀ {h : Nat} (d : Dt K V h), ∀ p ∈ d.pages P false, p.2.root = false
  | 0, d, p, hp => by
      obtain ⟨ref, l0, rfl⟩ := d.cases0
      rw [pages_leaf, Multiset.mem_singleton] at hp
      subst hp
      rfl
  | h + 1, d, p, hp => by
      obtain ⟨ref, r, rfl⟩ := d.casesS
      rw [pages_inner, Multiset.mem_cons] at hp
      rcases hp with rfl | hp
      · rfl
      · obtain ⟨c, -, hp⟩ := mem_listSum.1 hp
        exact Dt.pages_root c p hp

theorem Gt.pages_root {P : Par K} : ∀ {h : Nat} (t : Gt K V h) {q : Pos}, t.odds = 0 → q.root = false ∨ t.st = none →
    ∀ p ∈ (bun P q t).2.2.1, p.2.root = false
  | 0, t, q, hz, hq, p, hp => by
      rcases t.cases0 with ⟨i, d, rfl⟩ | ⟨i, st, l0, rfl⟩ | ⟨i, o, l, rfl⟩
      · have hq : q.root = false := hq.resolve_right (by simp)
        rw [bun_unl, hq] at hp
        exact Dt.pages_root d p (by simpa [cellB, offB] using hp)
      · rw [bun_leaf, leafB] at hp
        cases st with
        | none => simp [cellB, lruB] at hp
        | some ref =>
          have hq : q.root = false := hq.resolve_right (by simp)
          have : p = (ref, mkDisk P q.root l0.length (.leaf l0)) := by simpa [cellB, lruB, pageB] using hp
          subst this
          exact hq
      · simp at hz
  | h + 1, t, q, hz, hq, p, hp => by
      rcases t.casesS with ⟨i, d, rfl⟩ | ⟨i, st, r, rfl⟩ | ⟨i, o, r, rfl⟩
      · have hq : q.root = false := hq.resolve_right (by simp)
        rw [bun_unl, hq] at hp
        exact Dt.pages_root d p (by simpa [cellB, offB] using hp)
      · rw [bun_inner] at hp
        have hp' : p ∈ (innerB P q i st (r.map Gt.kid)).2.2.1 + (kidsB P i r.kids).2.2.1 := hp
        rcases Multiset.mem_add.1 hp' with hp | hp
        · rw [innerB] at hp
          cases st with
          | none => simp [cellB, lruB] at hp
          | some ref =>
            have hq : q.root = false := hq.resolve_right (by simp)
            have : p = (ref, mkDisk P q.root (r.map Gt.kid).total (r.map Gt.kid).disk) := by simpa [cellB, lruB, pageB] using hp
            subst this
            exact hq
        · obtain ⟨c, hc, hp⟩ := mem_kidsB.1 hp
          exact Gt.pages_root c (odds_kid hz hc) (.inl rfl) p hp
      · simp [odds_odInner] at hz

theorem Dt.kidPages {P : Par K} {b : Bool} {ref : Ref} {r : Row K (Dt K V h)} {c : Dt K V h} (hc : c ∈ r.kids) {p : Ref × DiskNode K V}
    (hp : p ∈ c.pages P false) : p ∈ (Dt.inner ref r).pages P b := by
  rw [pages_inner, Multiset.mem_cons]
  exact .inr (mem_listSum.2 ⟨c, hc, hp⟩)

/-- What is stored at a location is determined by what is on disk. -/
theorem Dt.det {f : Ref → Option (DiskNode K V)} {P P' : Par K} : ∀ {h h' : Nat} (d : Dt K V h) (d' : Dt K V h') (b b' : Bool),
    (∀ p ∈ d.pages P b, f p.1 = some p.2) → (∀ p ∈ d'.pages P' b', f p.1 = some p.2) → d.ref = d'.ref → ∃ e : h = h', e ▸ d = d' := by
  intro h
  induction h with
  | zero =>
    intro h' d d' b b' h1 h2 he
    have e1 := h1 _ (Dt.page P b d)
    have e2 := h2 _ (Dt.page P' b' d')
    dsimp only at e1 e2
    rw [he, e2, Option.some.injEq] at e1
    have eb : d'.body = d.body := congrArg DiskNode.body e1
    obtain ⟨ref, l, rfl⟩ := d.cases0
    cases h' with
    | zero =>
      obtain ⟨ref', l', rfl⟩ := d'.cases0
      simp only [ref_dleaf] at he
      simp only [Dt.body_leaf, DiskBody.leaf.injEq] at eb
      exact ⟨rfl, by rw [he, eb]⟩
    | succ h' => obtain ⟨ref', l', rfl⟩ := d'.casesS; simp [Dt.body_leaf, Dt.body_inner, Row.disk] at eb
  | succ h ih =>
    intro h' d d' b b' h1 h2 he
    have e1 := h1 _ (Dt.page P b d)
    have e2 := h2 _ (Dt.page P' b' d')
    dsimp only at e1 e2
    rw [he, e2, Option.some.injEq] at e1
    have eb : d'.body = d.body := congrArg DiskNode.body e1
    obtain ⟨ref, r, rfl⟩ := d.casesS
    cases h' with
    | zero => obtain ⟨ref', l', rfl⟩ := d'.cases0; simp [Dt.body_leaf, Dt.body_inner, Row.disk] at eb
    | succ h' =>
      obtain ⟨ref', r', rfl⟩ := d'.casesS
      simp only [ref_dinner] at he
      subst he
      rw [Dt.body_inner, Dt.body_inner] at eb
      have k1 : ∀ c ∈ r.kids, ∀ p ∈ c.pages P false, f p.1 = some p.2 := fun c hc p hp => h1 p (Dt.kidPages hc hp)
      have k2 : ∀ c ∈ r'.kids, ∀ p ∈ c.pages P' false, f p.1 = some p.2 := fun c hc p hp => h2 p (Dt.kidPages hc hp)
      obtain ⟨c0, cs⟩ := r
      obtain ⟨c0', cs'⟩ := r'
      simp only [Row.disk, Row.map, Kid.disk, Dt.kid, refOf, Option.getD_some, DiskBody.inner.injEq, Prod.mk.injEq, List.map_map] at eb
      simp only [Row.kids, List.mem_cons, List.mem_map, forall_eq_or_imp, forall_exists_index, and_imp, forall_apply_eq_imp_iff₂] at k1 k2
      obtain ⟨rfl, hc0⟩ := ih c0 c0' false false k1.1 k2.1 eb.1.1.symm
      dsimp only at hc0
      subst hc0
      refine ⟨rfl, ?_⟩
      dsimp only
      congr 2
      have eb2 := eb.2
      replace k1 := k1.2
      replace k2 := k2.2
      clear eb h1 h2 e1 e2
      induction cs generalizing cs' with
      | nil => cases cs' with | nil => rfl | cons _ _ => simp at eb2
      | cons p cs ihl =>
        cases cs' with
        | nil => simp at eb2
        | cons p' cs' =>
          simp only [List.map_cons, List.cons.injEq, Function.comp_apply, Prod.mk.injEq] at eb2
          simp only [List.mem_cons, forall_eq_or_imp] at k1 k2
          obtain ⟨e, he⟩ := ih p.2 p'.2 false false k1.1 k2.1 eb2.1.2.1.symm
          dsimp only at he
          rw [ihl cs' eb2.2 k1.2 k2.2]
          congr 1
          exact Prod.ext eb2.1.1.symm he

/-! ### How many items a tree of some height holds -/

theorem sum_bounds {α : Type} {L : List α} {f : α → Nat} {a b : Nat} (hf : ∀ x ∈ L, a ≤ f x ∧ f x ≤ b) :
    L.length * a ≤ (L.map f).sum ∧ (L.map f).sum ≤ L.length * b := by
  induction L with
  | nil => simp
  | cons x L ih =>
    simp only [List.mem_cons, forall_eq_or_imp] at hf
    have := ih hf.2
    simp only [List.length_cons, List.map_cons, List.sum_cons, Nat.add_mul, Nat.one_mul]
    omega

theorem Pt.Occ.bounds {mn mx : Nat} : ∀ {h : Nat} {p : Pt K V h}, p.Occ mn mx → mn * (mn + 1) ^ h ≤ p.flat.length ∧ p.flat.length ≤ mx * (mx + 1) ^ h
  | 0, p, hp => by
      obtain ⟨l, e⟩ := p.cases0; rw [e] at hp ⊢; rw [occ_leaf] at hp
      simpa using hp
  | h + 1, p, hp => by
      obtain ⟨r, e⟩ := p.casesS; rw [e] at hp ⊢
      rw [occ_inner] at hp
      have := sum_bounds (L := r.kids) (f := fun c => c.flat.length) (fun c hc => (hp.2 c hc).bounds)
      have hl : r.kids.length = r.cs.length + 1 := by simp [Row.kids]
      rw [hl] at this
      simp only [flat_inner, List.length_flatMap]
      have e1 : mn * (mn + 1) ^ (h + 1) = (mn + 1) * (mn * (mn + 1) ^ h) := by rw [pow_succ]; ac_rfl
      have e2 : mx * (mx + 1) ^ (h + 1) = (mx + 1) * (mx * (mx + 1) ^ h) := by rw [pow_succ]; ac_rfl
      rw [e1, e2]
      exact ⟨(Nat.mul_le_mul_right _ (by omega)).trans this.1, this.2.trans (Nat.mul_le_mul_right _ (by omega))⟩

theorem Pt.RootOcc.bounds {mn mx : Nat} : ∀ {h : Nat} {p : Pt K V h}, p.RootOcc mn mx →
    p.flat.length ≤ mx * (mx + 1) ^ h ∧ (1 ≤ h → 2 * mn * (mn + 1) ^ (h - 1) ≤ p.flat.length)
  | 0, p, hp => by
      obtain ⟨l, e⟩ := p.cases0; rw [e] at hp ⊢; rw [rootOcc_leaf] at hp
      simpa using hp
  | h + 1, p, hp => by
      obtain ⟨r, e⟩ := p.casesS; rw [e] at hp ⊢
      rw [rootOcc_inner] at hp
      have := sum_bounds (L := r.kids) (f := fun c => c.flat.length) (fun c hc => (hp.2 c hc).bounds)
      have hl : r.kids.length = r.cs.length + 1 := by simp [Row.kids]
      rw [hl] at this
      simp only [flat_inner, List.length_flatMap]
      have e2 : mx * (mx + 1) ^ (h + 1) = (mx + 1) * (mx * (mx + 1) ^ h) := by rw [pow_succ]; ac_rfl
      rw [e2, Nat.mul_assoc]
      exact ⟨this.2.trans (Nat.mul_le_mul_right _ (by omega)), fun _ => (Nat.mul_le_mul_right _ (by omega)).trans this.1⟩

/-! ### Several trees -/

/-- A tree that is open, and the pages it has yet to discard. -/
structure Ent (K V : Type) where
  P : Par K
  H : Nat
  g : Gt K V H
  SP : Multiset (Ref × DiskNode K V)
  /-- how many calls of `Prune` have failed -/
  fails : Nat

/-- What it takes up. -/
def Ent.F (e : Ent K V) : B K V := bun e.P ⟨none, true⟩ e.g + (slotB {e.g.id} + pagesB e.SP)

/-- The pages the current contents lie at. -/
def Ent.pages (e : Ent K V) : Multiset (Ref × DiskNode K V) := (bun e.P ⟨none, true⟩ e.g).2.2.1

/-- What they all take up. -/
def whole (L : List (Ent K V)) : B K V := (L.map Ent.F).sum

@[simp] theorem whole_nil : whole ([] : List (Ent K V)) = 0 := rfl
@[simp] theorem whole_cons (e : Ent K V) (L) : whole (e :: L) = e.F + whole L := by simp [whole]
@[simp] theorem whole_append (a b : List (Ent K V)) : whole (a ++ b) = whole a + whole b := by simp [whole]

structure Ent.OK (w : World K V) (e : Ent K V) : Prop where
  root : (w.trees e.P.τ).root = some e.g.id
  stale : e.fails = 0 → (((w.trees e.P.τ).stale : List Ref) : Multiset Ref) = e.SP.map Prod.fst
  cached : (w.trees e.P.τ).cached = e.P.ca
  min : (w.trees e.P.τ).min = e.P.min
  max : (w.trees e.P.τ).max = e.P.max
  clean : e.g.Clean
  odds : e.g.odds = 0
  occ : e.g.erase.RootOcc e.P.min e.P.max
  ord : Ord e.P.toCmp e.g.erase.seq

theorem Ent.OK.congr {w w' : World K V} {e : Ent K V} (h : e.OK w) (ht : w'.trees e.P.τ = w.trees e.P.τ) : e.OK w' :=
  ⟨by rw [ht]; exact h.root, by rw [ht]; exact h.stale, by rw [ht]; exact h.cached, by rw [ht]; exact h.min, by rw [ht]; exact h.max, h.clean, h.odds,
   h.occ, h.ord⟩

/-- The trees that are open, and pages that belong to none of them. -/
structure Scene (w : World K V) (L : List (Ent K V)) (LK : Multiset (Ref × DiskNode K V)) : Prop where
  heap : Heap w (whole L + pagesB LK)
  nodup : (L.map fun e => e.P.τ).Nodup
  ok : ∀ e ∈ L, e.OK w

variable {L a b : List (Ent K V)} {LK : Multiset (Ref × DiskNode K V)} {e : Ent K V}

/-- One of the trees. -/
theorem Scene.focus (h : Scene w (a ++ e :: b) LK) :
    Rest e.P w (e.SP + (e.pages + (whole (a ++ b) + pagesB LK).2.2.1), e.fails) (whole (a ++ b) + pagesB LK) e.g w := by
  have ho := h.ok e (by simp)
  refine ⟨?_, ho.clean, ho.odds, ho.occ, ho.ord⟩
  have h1 : Heap w (bun e.P ⟨none, true⟩ e.g + (slotB {e.g.id} + (whole (a ++ b) + pagesB LK)) + pagesB e.SP) := h.heap.eq (by
    simp only [whole_append, whole_cons, Ent.F]; abel)
  have := h1.I ho.root ho.stale ho.cached ho.min ho.max
  simpa [Ent.pages, slotB_3] using this

theorem Scene.mid (h : Scene w (a ++ e :: b) LK) : ∀ x ∈ a ++ b, x.P.τ ≠ e.P.τ := by
  have := h.nodup
  rw [List.map_append, List.map_cons, List.nodup_middle, List.nodup_cons, ← List.map_append, List.mem_map] at this
  rintro x hx he
  exact this.1 ⟨x, hx, he⟩

/-- The tree is another one afterwards. -/
theorem Scene.back {w' : World K V} (h : Scene w (a ++ e :: b) LK) {H' : Nat} {g' : Gt K V H'}
    (hr : Rest e.P w0 T (whole (a ++ b) + pagesB LK) g' w') (ho : ∀ σ, σ ≠ e.P.τ → w'.trees σ = w.trees σ) :
    ∃ SP, Scene w' (a ++ ⟨e.P, H', g', SP, T.2⟩ :: b) LK ∧ SP + (Ent.pages ⟨e.P, H', g', SP, T.2⟩ + (whole (a ++ b) + pagesB LK).2.2.1) = T.1 := by
  obtain ⟨SP, h1, h2, h3⟩ := hr.I.heap
  refine ⟨SP, ⟨h3.eq ?_, ?_, ?_⟩, ?_⟩
  · simp only [whole_append, whole_cons, Ent.F]; abel
  · have := h.nodup
    simpa using this
  · intro x hx
    rw [List.mem_append, List.mem_cons] at hx
    have hx' : x = ⟨e.P, H', g', SP, T.2⟩ ∨ x ∈ a ++ b := by rw [List.mem_append]; tauto
    rcases hx' with rfl | hx'
    · exact ⟨hr.I.root, h1, hr.I.cached, hr.I.min, hr.I.max, hr.clean, hr.odds, hr.occ, hr.ord⟩
    · have := h.mid x hx'
      exact (h.ok x (by rw [List.mem_append, List.mem_cons]; rw [List.mem_append] at hx'; tauto)).congr (ho _ this)
  · rw [← h2]
    simp [Ent.pages, slotB_3]

/-! ### The calls -/

/-- The parameters the specification knows of. -/
def Par.cfg (P : Par K) : Api.Cfg K := ⟨P.cmp, P.Valid, P.max⟩

/-- Which callbacks may fail. -/
def Env.faults (v : Env) : Api.Faults := ⟨∃ n, v.getFails n = true, ∃ n, v.unpackFails n = true, ∃ n, v.packFails n = true, ∃ n, v.discardFails n = true⟩

/-- A new process: the memory is lost, what the client has stored is not. -/
def boot (w : World K V) : World K V :=
  { node := fun i => freshStruct i.1 0 false false none none, ps := fun _ => ⟨0, 0, none, none, none⟩, lru := .empty
    ctl := ⟨0, 0, false, 0, 0, 0⟩, trees := fun _ => ⟨0, 0, none, [], false⟩, next := 0, disk := w.disk, env := w.env, log := w.log }

/-- A call and its result. -/
def reply {α : Type} (f : α → Api.Reply K V) (m : M K V α) : M K V (Api.Reply K V) := fun w =>
  match m w with
  | (.ok a, w') => (.ok (f a), w')
  | (.err e, w') => (.err e, w')
  | (.fatal, w') => (.fatal, w')

/-- The calls of the API. -/
def exec (size : DiskNode K V → Nat) (cfg : TreeId → Par K) (fuel : Nat) : Api.Call K V → M K V (Api.Reply K V)
  | .op t o => reply .ans (step (cfg t).cmp t fuel o)
  | .flush t p => reply .loc (flush size t fuel p)
  | .purge t full => reply (fun _ => .unit) (purge t fuel full)
  | .touch t => reply (fun _ => .unit) (touch (cfg t).cmp t fuel)
  | .touchItem t i => reply .index (touchItem (cfg t).cmp t fuel i)
  | .prune t => reply (fun _ => .unit) (prune t)
  | .discard t => reply (fun _ => .unit) (discard (cfg t).cmp t fuel)
  | .layout t => reply .layout (fetchLayoutReport (cfg t).cmp t fuel)
  | .dimensions t => reply .dimensions (fetchDimensionsReport (cfg t).cmp t fuel)
  | .location t => reply .loc (fetchLocation t)
  | .dump t cb => reply .dumped (dump (cfg t).cmp cb t fuel)
  | .new t => reply (fun _ => .unit) (newBPlusTree t (cfg t).max (cfg t).ca)
  | .old t r => reply (fun _ => .unit) (oldBPlusTree (cfg t).cmp t r (cfg t).ca)
  | .evict x => reply (fun _ => .unit) (drainerEvict fuel x)
  | .limits a b => reply (fun _ => .unit) (updateLimits a b)
  | .restart => fun w => (.ok .unit, boot w)

/-- What can be seen of a call. -/
def obs (w : World K V) (r : Out (Api.Reply K V) × World K V) : Api.Obs K V :=
  { out := r.1, puts := r.2.env.puts - w.env.puts, discards := r.2.env.discards - w.env.discards,
    gone := r.2.log.take (r.2.log.length - w.log.length), stored := fun x => r.2.disk x ≠ none, leads := Leads r.2.disk }

theorem reply_ok {α : Type} {f : α → Api.Reply K V} {m : M K V α} {a : α} {w' : World K V} (h : m w = (.ok a, w')) : reply f m w = (.ok (f a), w') := by
  simp [reply, h]
theorem reply_err {α : Type} {f : α → Api.Reply K V} {m : M K V α} {e : Err} {w' : World K V} (h : m w = (.err e, w')) : reply f m w = (.err e, w') := by
  simp [reply, h]
theorem reply_world {α : Type} {f : α → Api.Reply K V} {m : M K V α} : (reply f m w).2 = (m w).2 := by
  unfold reply
  rcases m w with ⟨_ | _ | _, _⟩ <;> rfl

/-- The map a tree stands for. -/
structure Rep (e : Ent K V) (m : Api.Map K V) : Prop where
  items : m.items = e.g.erase.flat
  live : m.live = e.pages.map Prod.fst
  old : m.old = e.SP.map Prod.fst
  saved : m.saved = e.g.st
  fails : m.fails = e.fails

/-- The memory and the disk are as the specification says. -/
structure Show (cfg : TreeId → Par K) (n : Nat) (w : World K V) (s : Api.St K V) (L : List (Ent K V)) (LK : Multiset (Ref × DiskNode K V)) : Prop where
  scene : Scene w L LK
  cfg : ∀ e ∈ L, e.P = cfg e.P.τ
  high : ∀ e ∈ L, e.H ≤ n
  rep : ∀ e ∈ L, ∃ m, s.maps e.P.τ = some m ∧ Rep e m
  only : ∀ t m, s.maps t = some m → ∃ e ∈ L, e.P.τ = t
  lost : ∀ r, r ∈ LK.map Prod.fst ↔ s.lost r

/-- The disk is as the specification says. -/
def Filed (w : World K V) (s : Api.St K V) : Prop :=
  ∃ A : Multiset (Ref × DiskNode K V), (A.map Prod.fst).Nodup ∧ (∀ p ∈ A, w.disk p.1 = some p.2 ∧ p.1.len ≠ 0) ∧ ∀ r, r ∈ A.map Prod.fst ↔ s.holds r

/-- A snapshot is on disk. -/
structure SnapOK (w : World K V) (P : Par K) (r : Ref) (sn : Api.Snap K V) (d : Dt K V H) : Prop where
  ref : d.ref = r
  items : d.erase.flat = sn.items
  ord : Ord P.toCmp d.erase.seq
  occ : d.erase.RootOcc P.min P.max
  locs : (d.pages P true).map Prod.fst = sn.locs
  nodup : sn.locs.Nodup
  disk : ∀ p ∈ d.pages P true, w.disk p.1 = some p.2 ∧ p.1.len ≠ 0

theorem SnapOK.leads {P : Par K} {r : Ref} {sn : Api.Snap K V} {d : Dt K V H} (h : SnapOK w P r sn d) (x : Ref) : x ∈ sn.locs ↔ Leads w.disk r x := by
  rw [← h.locs, ← h.ref]
  exact Dt.leads true d (fun p hp => (h.disk p hp).1) x

theorem SnapOK.ne_zero {P : Par K} {r : Ref} {sn : Api.Snap K V} {d : Dt K V H} (h : SnapOK w P r sn d) : r ≠ .zero := by
  rw [← h.ref]
  cases H with
  | zero =>
    obtain ⟨ref, l, rfl⟩ := d.cases0
    have := (h.disk _ (by rw [pages_leaf]; exact Multiset.mem_singleton_self _)).2
    rintro e
    rw [ref_dleaf] at e
    rw [e] at this
    exact this rfl
  | succ H =>
    obtain ⟨ref, l, rfl⟩ := d.casesS
    have := (h.disk _ (by rw [pages_inner]; exact Multiset.mem_cons_self _ _)).2
    rintro e
    rw [ref_dinner] at e
    rw [e] at this
    exact this rfl

/-- The state is as the specification says. -/
structure Inv (cfg : TreeId → Par K) (n : Nat) (w : World K V) (s : Api.St K V) : Prop where
  filed : Filed w s
  apart : s.Apart
  snaps : ∀ r sn, s.snaps r = some sn → ∃ (H : Nat) (d : Dt K V H), H ≤ n ∧ SnapOK w (cfg sn.map) r sn d ∧ ∀ x ∈ sn.locs, s.holds x
  owned : s.Owned
  exact : s.exact = true → ∀ r, w.disk r ≠ none → s.holds r
  shows : s.sound = true → ∃ L LK, Show cfg n w s L LK

variable {cfg : TreeId → Par K} {n : Nat} {s s' : Api.St K V} {w' : World K V}

theorem whole_pages : ∀ (L : List (Ent K V)), (whole L).2.2.1 = (L.map fun e => e.pages + e.SP).sum
  | [] => rfl
  | e :: L => by
      rw [whole_cons, List.map_cons, List.sum_cons, Prod.snd_add, Prod.snd_add, Prod.fst_add, whole_pages L]
      simp [Ent.F, Ent.pages]

theorem Show.mem (h : Show cfg n w s L LK) {r : Ref} : r ∈ ((whole L + pagesB LK).2.2.1.map Prod.fst) ↔ s.holds r := by
  simp only [Prod.snd_add, Prod.fst_add, pagesB_3, Multiset.map_add, Multiset.mem_add, whole_pages, h.lost, Api.St.holds]
  constructor
  · rintro (h1 | h1)
    · obtain ⟨p, hp, rfl⟩ := Multiset.mem_map.1 h1
      obtain ⟨e, he, hm⟩ := mem_listSum.1 hp
      obtain ⟨m, m1, m2⟩ := h.rep e he
      refine .inr ⟨_, m, m1, ?_⟩
      rw [m2.live, m2.old]
      exact (Multiset.mem_add.1 hm).imp (fun h => Multiset.mem_map_of_mem _ h) (fun h => Multiset.mem_map_of_mem _ h)
    · exact .inl h1
  · rintro (h1 | ⟨t, m, m1, h1⟩)
    · exact .inr h1
    · obtain ⟨e, he, rfl⟩ := h.only t m m1
      obtain ⟨m', m1', m2⟩ := h.rep e he
      rw [m1, Option.some.injEq] at m1'
      subst m1'
      rw [m2.live, m2.old] at h1
      have : r ∈ (e.pages + e.SP).map Prod.fst := by rw [Multiset.map_add, Multiset.mem_add]; exact h1
      obtain ⟨p, hp, rfl⟩ := Multiset.mem_map.1 this
      exact .inl (Multiset.mem_map_of_mem _ (mem_listSum.2 ⟨e, he, hp⟩))

theorem Show.filed (h : Show cfg n w s L LK) : Filed w s := ⟨_, h.scene.heap.nodup, h.scene.heap.disk, fun _ => h.mem⟩

theorem Show.split (h : Show cfg n w s L LK) {t : TreeId} {m : Api.Map K V} (hm : s.maps t = some m) :
    ∃ a e b, L = a ++ e :: b ∧ e.P.τ = t ∧ Rep e m ∧ e.P = cfg t ∧ e.H ≤ n := by
  obtain ⟨e, he, rfl⟩ := h.only t m hm
  obtain ⟨m', m1', m2⟩ := h.rep e he
  rw [hm, Option.some.injEq] at m1'
  subst m1'
  obtain ⟨a, b, rfl⟩ := List.append_of_mem he
  exact ⟨a, e, b, rfl, rfl, m2, h.cfg e he, h.high e he⟩

theorem Show.apart (h : Show cfg n w s L LK) : s.Apart := by
  intro t m hm
  obtain ⟨a, e, b, rfl, rfl, hrep, -, -⟩ := h.split hm
  have hn := h.scene.heap.nodup
  have : (whole (a ++ e :: b) + pagesB LK).2.2.1 = (e.pages + e.SP) + (whole (a ++ b) + pagesB LK).2.2.1 := by
    simp only [Prod.snd_add, Prod.fst_add, whole_pages, List.map_append, List.map_cons, List.sum_append, List.sum_cons]
    abel
  rw [this, Multiset.map_add, Multiset.nodup_add] at hn
  have hl : m.live + m.old = (e.pages + e.SP).map Prod.fst := by rw [hrep.live, hrep.old, Multiset.map_add]
  rw [hl]
  refine ⟨hn.1, fun x hx => ⟨fun hlost => ?_, fun t' m' hm' hne hx' => ?_⟩⟩
  · refine Multiset.disjoint_left.1 hn.2.2 hx ?_
    rw [← h.lost] at hlost
    simp only [Prod.snd_add, Prod.fst_add, pagesB_3, Multiset.map_add, Multiset.mem_add]
    exact .inr hlost
  · obtain ⟨e', he', rfl⟩ := h.only t' m' hm'
    obtain ⟨m2, m21, m22⟩ := h.rep e' he'
    rw [hm', Option.some.injEq] at m21
    subst m21
    rw [m22.live, m22.old, ← Multiset.map_add] at hx'
    have hmem : e' ∈ a ++ b := by
      rw [List.mem_append, List.mem_cons] at he'
      rw [List.mem_append]
      rcases he' with h | rfl | h
      · exact .inl h
      · exact absurd rfl hne
      · exact .inr h
    refine Multiset.disjoint_left.1 hn.2.2 hx ?_
    obtain ⟨p, hp, rfl⟩ := Multiset.mem_map.1 hx'
    refine Multiset.mem_map_of_mem _ ?_
    simp only [Prod.snd_add, Prod.fst_add, pagesB_3, Multiset.mem_add, whole_pages]
    exact .inl (mem_listSum.2 ⟨e', hmem, hp⟩)

/-! ### From one state to the next -/

theorem set_maps_same (s : Api.St K V) (t : TreeId) (m : Option (Api.Map K V)) : (s.set t m).maps t = m := by simp [Api.St.set]
theorem set_maps_ne (s : Api.St K V) {t t' : TreeId} (m : Option (Api.Map K V)) (h : t' ≠ t) : (s.set t m).maps t' = s.maps t' := by simp [Api.St.set, h]
theorem set_self {t : TreeId} {m : Option (Api.Map K V)} (h : s.maps t = m) : s.set t m = s := by
  obtain ⟨maps, a, b, c, d⟩ := s
  subst h
  simp only [Api.St.set, Api.St.mk.injEq, and_true]
  funext t'
  split
  · next h => rw [h]
  · rfl

theorem holds_set {t : TreeId} {m m' : Api.Map K V} (hm : s.maps t = some m) {r : Ref} (he : (r ∈ m'.live ∨ r ∈ m'.old) ↔ (r ∈ m.live ∨ r ∈ m.old)) :
    (s.set t (some m')).holds r ↔ s.holds r := by
  unfold Api.St.holds
  have hl : (s.set t (some m')).lost r = s.lost r := rfl
  rw [hl]
  refine or_congr_right ⟨?_, ?_⟩
  · rintro ⟨t', x, h1, h2⟩
    by_cases ht : t' = t
    · subst ht
      rw [set_maps_same, Option.some.injEq] at h1
      subst h1
      exact ⟨_, m, hm, he.1 h2⟩
    · rw [set_maps_ne _ _ ht] at h1
      exact ⟨_, x, h1, h2⟩
  · rintro ⟨t', x, h1, h2⟩
    by_cases ht : t' = t
    · subst ht
      rw [hm, Option.some.injEq] at h1
      subst h1
      exact ⟨_, m', set_maps_same _ _ _, he.2 h2⟩
    · exact ⟨t', x, by rw [set_maps_ne _ _ ht]; exact h1, h2⟩

theorem Show.mono (h : Show cfg n w s L LK) {n' : Nat} (hn : n ≤ n') : Show cfg n' w s L LK :=
  ⟨h.scene, h.cfg, fun e he => (h.high e he).trans hn, h.rep, h.only, h.lost⟩

theorem Show.put (h : Show cfg n w s (a ++ e :: b) LK) {H' : Nat} {g' : Gt K V H'} (hr : Rest e.P w0 T (whole (a ++ b) + pagesB LK) g' w')
    (ho : ∀ σ, σ ≠ e.P.τ → w'.trees σ = w.trees σ) (hH : H' ≤ n + 1) :
    ∃ SP, SP + (Ent.pages ⟨e.P, H', g', SP, T.2⟩ + (whole (a ++ b) + pagesB LK).2.2.1) = T.1 ∧
      ∀ m', Rep ⟨e.P, H', g', SP, T.2⟩ m' → Show cfg (n + 1) w' (s.set e.P.τ (some m')) (a ++ ⟨e.P, H', g', SP, T.2⟩ :: b) LK := by
  obtain ⟨SP, h1, h2⟩ := h.scene.back hr ho
  refine ⟨SP, h2, fun m' hm => ?_⟩
  have hmem : ∀ x ∈ a ++ (⟨e.P, H', g', SP, T.2⟩ : Ent K V) :: b, x = ⟨e.P, H', g', SP, T.2⟩ ∨ (x ∈ a ++ e :: b ∧ x.P.τ ≠ e.P.τ) := by
    intro x hx
    rw [List.mem_append, List.mem_cons] at hx
    have hx' : x = ⟨e.P, H', g', SP, T.2⟩ ∨ x ∈ a ++ b := by rw [List.mem_append]; tauto
    rcases hx' with rfl | hx'
    · exact .inl rfl
    · exact .inr ⟨by rw [List.mem_append, List.mem_cons]; rw [List.mem_append] at hx'; tauto, h.scene.mid x hx'⟩
  refine ⟨h1, ?_, ?_, ?_, ?_, h.lost⟩
  · intro x hx
    rcases hmem x hx with rfl | ⟨hx', -⟩
    · exact h.cfg e (by simp)
    · exact h.cfg x hx'
  · intro x hx
    rcases hmem x hx with rfl | ⟨hx', -⟩
    · exact hH
    · exact (h.high x hx').trans (by omega)
  · intro x hx
    rcases hmem x hx with rfl | ⟨hx', hne⟩
    · exact ⟨m', set_maps_same _ _ _, hm⟩
    · rw [set_maps_ne _ _ hne]; exact h.rep x hx'
  · intro t m hm'
    by_cases ht : t = e.P.τ
    · exact ⟨⟨e.P, H', g', SP, T.2⟩, by simp, ht.symm⟩
    · rw [set_maps_ne _ _ ht] at hm'
      obtain ⟨x, hx, rfl⟩ := h.only t m hm'
      refine ⟨x, ?_, rfl⟩
      rw [List.mem_append, List.mem_cons] at hx ⊢
      rcases hx with hx | rfl | hx
      · exact .inl hx
      · exact absurd rfl ht
      · exact .inr (.inr hx)

theorem Inv.next (hi : Inv cfg n w s) (hS : Show cfg (n + 1) w' s' L LK) (how : s'.Owned)
    (hsn : ∀ r sn, s'.snaps r = some sn → (s.snaps r = some sn ∧ ∀ x ∈ sn.locs, w'.disk x = w.disk x ∧ s'.holds x) ∨
      ∃ (H : Nat) (d : Dt K V H), H ≤ n + 1 ∧ SnapOK w' (cfg sn.map) r sn d ∧ ∀ x ∈ sn.locs, s'.holds x)
    (hex : s'.exact = true → ∀ r, w'.disk r ≠ none → s'.holds r) : Inv cfg (n + 1) w' s' := by
  refine ⟨hS.filed, hS.apart, ?_, how, hex, fun _ => ⟨L, LK, hS⟩⟩
  intro r sn hr
  rcases hsn r sn hr with ⟨h1, h2⟩ | h
  · obtain ⟨H, d, h3, h4, h5⟩ := hi.snaps r sn h1
    refine ⟨H, d, by omega, ⟨h4.ref, h4.items, h4.ord, h4.occ, h4.locs, h4.nodup, ?_⟩, fun x hx => (h2 x hx).2⟩
    intro p hp
    rw [(h2 p.1 (by rw [← h4.locs]; exact Multiset.mem_map_of_mem _ hp)).1]
    exact h4.disk p hp
  · exact h

theorem SnapOK.self {P : Par K} {r : Ref} {sn : Api.Snap K V} {H : Nat} {d : Dt K V H} (h : SnapOK w P r sn d) : r ∈ sn.locs := by
  rw [← h.locs, ← h.ref]
  exact Multiset.mem_map_of_mem _ (Dt.page P true d)

theorem Inv.tally (hi : Inv cfg n w' s') {out : Out (Api.Reply K V)} :
    (∀ r, s'.holds r → (obs w (out, w')).stored r) ∧ (s'.exact = true → ∀ r, (obs w (out, w')).stored r → s'.holds r) ∧ s'.Apart ∧ s'.Owned ∧ s'.Kept := by
  refine ⟨fun r hr => ?_, hi.exact, hi.apart, hi.owned, fun r sn hr => ?_⟩
  rotate_left
  · obtain ⟨H, d, -, h2, h3⟩ := hi.snaps r sn hr
    exact ⟨h2.self, h2.locs ▸ h2.nodup, h3⟩
  obtain ⟨A, -, h2, h3⟩ := hi.filed
  obtain ⟨p, hp, rfl⟩ := Multiset.mem_map.1 ((h3 r).2 hr)
  show w'.disk p.1 ≠ none
  rw [(h2 p hp).1]
  simp

theorem _root_.SM.Api.St.Owned.set (h : s.Owned) {t : TreeId} {m m' : Api.Map K V} (hm : s.maps t = some m)
    (hsub : ∀ x, x ∈ m'.live ∨ x ∈ m'.old → (x ∈ m.live ∨ x ∈ m.old) ∨ ∀ r sn, s.snaps r = some sn → x ∉ sn.locs) : (s.set t (some m')).Owned := by
  refine ⟨fun r sn x t1 m1 hr hl hm1 hx => ?_, h.same⟩
  by_cases ht : t1 = t
  · subst ht
    rw [set_maps_same, Option.some.injEq] at hm1
    subst hm1
    rcases hsub x hx with h1 | h1
    · exact h.mine r sn x t1 m hr hl hm h1
    · exact absurd hl (h1 r sn hr)
  · rw [set_maps_ne _ _ ht] at hm1
    exact h.mine r sn x t1 m1 hr hl hm1 hx

theorem _root_.SM.Api.St.Owned.snap (h : s.Owned) (hap : s.Apart) {t : TreeId} {m : Api.Map K V} (hm : s.maps t = some m) {r : Ref} {sn : Api.Snap K V}
    (hr : ∀ x ∈ sn.locs, x ∈ m.live) (hsn : sn.map = t) : (s.snap r sn).Owned := by
  have hc : ∀ {r1 : Ref} {sn1 : Api.Snap K V}, (s.snap r sn).snaps r1 = some sn1 → sn1 = sn ∨ s.snaps r1 = some sn1 := by
    intro r1 sn1 h1
    by_cases he : r1 = r
    · simp only [Api.St.snap, if_pos he, Option.some.injEq] at h1
      exact .inl h1.symm
    · simp only [Api.St.snap, if_neg he] at h1
      exact .inr h1
  refine ⟨fun r1 sn1 x t1 m1 hr1 hl hm1 hx => ?_, fun r1 sn1 r2 sn2 x h1 h2 l1 l2 => ?_⟩
  · rcases hc hr1 with rfl | hr1
    · rw [hsn]
      by_contra hne
      exact ((hap t m hm).2 x (Multiset.mem_add.2 (.inl (hr x hl)))).2 t1 m1 hm1 (fun h => hne h.symm) (Multiset.mem_add.2 hx)
    · exact h.mine r1 sn1 x t1 m1 hr1 hl hm1 hx
  · rcases hc h1 with rfl | h1 <;> rcases hc h2 with rfl | h2
    · rfl
    · rw [hsn]; exact (h.mine r2 sn2 x t m h2 l2 hm (.inl (hr x l1))).symm
    · rw [hsn]; exact h.mine r1 sn1 x t m (by assumption) l1 hm (.inl (hr x l2))
    · exact h.same r1 sn1 r2 sn2 x h1 h2 l1 l2

/-- Nothing happened to the disk, and what is accounted for is the same. -/
theorem Inv.calm (hi : Inv cfg n w s) (hS : Show cfg (n + 1) w' s' L LK) {τ : TreeId} (hq : Quiet τ w w') (hh : ∀ r, s'.holds r ↔ s.holds r)
    (hs : s'.snaps = s.snaps) (he : s'.exact = s.exact) (how : s'.Owned) : Inv cfg (n + 1) w' s' := by
  refine hi.next hS how ?_ ?_
  · intro r sn hr
    rw [hs] at hr
    obtain ⟨H, d, h3, h4, h5⟩ := hi.snaps r sn hr
    exact .inl ⟨hr, fun x hx => ⟨by rw [hq.disk], (hh x).2 (h5 x hx)⟩⟩
  · rw [he, hq.disk]
    exact fun h r hr => (hh r).2 (hi.exact h r hr)

theorem Quiet.obs {τ : TreeId} (hq : Quiet τ w w') {out : Out (Api.Reply K V)} : (obs w (out, w')).quiet := by
  refine ⟨?_, ?_, ?_⟩
  · simp [BT.obs, hq.puts]
  · simp [BT.obs, hq.discards]
  · simp [BT.obs, hq.log]

/-- A tree is what it was. -/
theorem Inv.same (hi : Inv cfg n w s) (hS : Show cfg n w s (a ++ e :: b) LK) {m : Api.Map K V} (hm : s.maps e.P.τ = some m) (hrep : Rep e m)
    {g' : Gt K V e.H} (hs : Sim e.P e.g g')
    (hr : Rest e.P w (e.SP + (e.pages + (whole (a ++ b) + pagesB LK).2.2.1), e.fails) (whole (a ++ b) + pagesB LK) g' w') : Inv cfg (n + 1) w' s := by
  obtain ⟨SP, h1, h2⟩ := hS.put hr hr.I.evo.others ((hS.high e (by simp)).trans (by omega))
  have hp : Ent.pages ⟨e.P, e.H, g', SP, e.fails⟩ = e.pages := hs.pages _
  have hsp : SP = e.SP := by rw [hp] at h1; exact add_right_cancel h1
  have := h2 m ⟨by rw [hrep.items]; exact congrArg Pt.flat hs.erase.symm, by rw [hp]; exact hrep.live, by rw [hrep.old, ← hsp],
    hrep.saved.trans hs.st.symm, hrep.fails⟩
  rw [set_self hm] at this
  exact hi.calm this hr.I.evo (fun _ => Iff.rfl) rfl rfl hi.owned

/-- A tree is another one, made of the same pages. -/
theorem Inv.changed (hi : Inv cfg n w s) (hS : Show cfg n w s (a ++ e :: b) LK) {m : Api.Map K V} (hm : s.maps e.P.τ = some m) (hrep : Rep e m)
    {H' : Nat} {g' : Gt K V H'} (hH : H' ≤ e.H + 1) (hst : g'.st = none)
    (hr : Rest e.P w (e.SP + (e.pages + (whole (a ++ b) + pagesB LK).2.2.1), e.fails) (whole (a ++ b) + pagesB LK) g' w') :
    ∃ m' : Api.Map K V, Api.Changed m m' g'.erase.flat ∧ m'.live = (bun e.P ⟨none, true⟩ g').2.2.1.map Prod.fst ∧ Inv cfg (n + 1) w' (s.set e.P.τ (some m')) := by
  obtain ⟨SP, h1, h2⟩ := hS.put hr hr.I.evo.others (by have := hS.high e (by simp); omega)
  have hsp : SP + Ent.pages ⟨e.P, H', g', SP, e.fails⟩ = e.SP + e.pages := by rw [← add_assoc, ← add_assoc] at h1; exact add_right_cancel h1
  have hsp' := congrArg (Multiset.map Prod.fst) hsp
  rw [Multiset.map_add, Multiset.map_add, ← hrep.old, ← hrep.live] at hsp'
  refine ⟨⟨g'.erase.flat, (Ent.pages ⟨e.P, H', g', SP, e.fails⟩).map Prod.fst, SP.map Prod.fst, none, e.fails⟩, ⟨rfl, ?_, rfl, ?_, hrep.fails.symm⟩, rfl, ?_⟩
  · rw [add_comm, hsp', add_comm]
  · intro r hr0
    rw [hrep.saved] at hr0
    obtain ⟨d, hd, -, hd'⟩ := Gt.stored e.g (hS.scene.ok e (by simp)).clean (hS.scene.ok e (by simp)).odds (by rw [hr0]; rfl)
    rw [hr0, Option.some.injEq] at hd
    have hp := Dt.page e.P true d
    rw [← hd' e.P ⟨none, true⟩] at hp
    have hp' : (d.ref, mkDisk e.P true d.cnt d.body) ∈ SP + Ent.pages ⟨e.P, H', g', SP, e.fails⟩ := by rw [hsp]; exact Multiset.mem_add.2 (.inr hp)
    rcases Multiset.mem_add.1 hp' with hp' | hp'
    · rw [hd]; exact Multiset.mem_map_of_mem Prod.fst hp'
    · have := Gt.pages_root g' hr.odds (.inr hst) _ hp'
      cases this
  · refine hi.calm (h2 _ ⟨rfl, rfl, rfl, hst.symm, rfl⟩) hr.I.evo (fun r => holds_set hm ?_) rfl rfl (hi.owned.set hm fun r hr => .inl ?_)
    all_goals have : r ∈ SP.map Prod.fst + (Ent.pages ⟨e.P, H', g', SP, e.fails⟩).map Prod.fst ↔ r ∈ m.old + m.live := by rw [hsp']
    all_goals rw [Multiset.mem_add, Multiset.mem_add] at this
    · dsimp only
      tauto
    · dsimp only at hr
      tauto

/-! ### The operations of a sorted map -/

theorem Inv.break (hi : Inv cfg n w s) (hq : Idle w w') : Inv cfg (n + 1) w' { s with sound := false } := by
  refine ⟨?_, hi.apart, ?_, ⟨hi.owned.mine, hi.owned.same⟩, ?_, fun h => by cases h⟩
  · obtain ⟨A, h1, h2, h3⟩ := hi.filed
    exact ⟨A, h1, by rw [hq.disk]; exact h2, h3⟩
  · intro r sn hr
    obtain ⟨H, d, h3, h4, h5⟩ := hi.snaps r sn hr
    exact ⟨H, d, by omega, ⟨h4.ref, h4.items, h4.ord, h4.occ, h4.locs, h4.nodup, by rw [hq.disk]; exact h4.disk⟩, h5⟩
  · rw [hq.disk]; exact hi.exact

theorem Idle.obs (hq : Idle w w') {out : Out (Api.Reply K V)} : (obs w (out, w')).quiet := by
  refine ⟨?_, ?_, ?_⟩
  · simp [BT.obs, hq.puts]
  · simp [BT.obs, hq.discards]
  · simp [BT.obs, hq.log]

theorem stepE_none {cmp : Compare K} {l : List (K × V)} {o : Op K V} (h : (stepE cmp l o).1 = none) : (stepE cmp l o).2 = l := by
  unfold stepE at h ⊢
  split at h
  · split at h
    · next h2 => rw [if_pos h2]
    · cases h
  · cases h

theorem Faulty.reading {e : Err} (h : Faulty w e) : w.env.faults.reading e := h

section
variable (hi : Inv cfg n w s) (hS : Show cfg n w s (a ++ e :: b) LK) {m : Api.Map K V} (hm : s.maps e.P.τ = some m) (hrep : Rep e m)
  {o : Op K V} {fuel : Nat}
include hi hS hm hrep

theorem op_read (hp : ReadPost e.P w (e.SP + (e.pages + (whole (a ++ b) + pagesB LK).2.2.1), e.fails) (whole (a ++ b) + pagesB LK) e.g o (step e.P.cmp e.P.τ fuel o w))
    (hl : (stepE e.P.cmp m.items o).2 = m.items) (hd : ¬Api.isDeleteByIndex o) :
    ∃ s', Api.opStep e.P.cfg w.env.faults s e.P.τ m o (obs w (reply .ans (step e.P.cmp e.P.τ fuel o) w)) s' ∧
      Inv cfg (n + 1) (reply .ans (step e.P.cmp e.P.τ fuel o) w).2 s' := by
  rcases hp.cases with ⟨x, w', e1, h1, g', h2, h3⟩ | ⟨x, w', e1, h1, g', h2, h3⟩
  · rw [reply_ok e1]
    exact ⟨s, ⟨h3.I.evo.obs, .inl ⟨.inl ⟨x, rfl, by rw [hrep.items]; exact h1⟩, .inl ⟨hl, rfl⟩⟩⟩, hi.same hS hm hrep h2 h3⟩
  · rw [reply_err e1]
    rcases h1 with h1 | h1
    · exact ⟨s, ⟨h3.I.evo.obs, .inr (.inl ⟨x, rfl, Faulty.reading h1, hd, rfl⟩)⟩, hi.same hS hm hrep h2 h3⟩
    · exact ⟨s, ⟨h3.I.evo.obs, .inl ⟨.inr ⟨x, rfl, by rw [hrep.items]; exact h1.1, h1.2⟩, .inl ⟨hl, rfl⟩⟩⟩, hi.same hS hm hrep h2 h3⟩

theorem op_write (hp : WritePost e.P w (e.SP + (e.pages + (whole (a ++ b) + pagesB LK).2.2.1), e.fails) (whole (a ++ b) + pagesB LK) e.g o (step e.P.cmp e.P.τ fuel o w))
    (hro : ¬Api.readOnly e.P.cmp m.items o) (hdi : ¬Api.isDeleteByIndex o) :
    ∃ s', Api.opStep e.P.cfg w.env.faults s e.P.τ m o (obs w (reply .ans (step e.P.cmp e.P.τ fuel o) w)) s' ∧
      Inv cfg (n + 1) (reply .ans (step e.P.cmp e.P.τ fuel o) w).2 s' := by
  rcases hp.cases with ⟨x, w', e1, h1, ⟨k0, g', k1, k2⟩ | ⟨H', g', h2, h3, h5, h4⟩, -⟩ | ⟨x, w', e1, h1, g', k1, k2⟩
  · rw [reply_ok e1]
    exact ⟨s, ⟨k2.I.evo.obs, .inl ⟨.inl ⟨x, rfl, by rw [hrep.items]; exact h1⟩, .inl ⟨by rw [hrep.items]; exact k0, rfl⟩⟩⟩, hi.same hS hm hrep k1 k2⟩
  · rw [reply_ok e1]
    obtain ⟨m', c1, -, c2⟩ := hi.changed hS hm hrep h2 h5.1 h4
    rw [h3, ← hrep.items] at c1
    exact ⟨_, ⟨h4.I.evo.obs, .inl ⟨.inl ⟨x, rfl, by rw [hrep.items]; exact h1⟩, .inr ⟨hro, m', c1, rfl⟩⟩⟩, c2⟩
  · rw [reply_err e1]
    rcases h1 with h1 | h1
    · exact ⟨s, ⟨k2.I.evo.obs, .inr (.inl ⟨x, rfl, Faulty.reading h1, hdi, rfl⟩)⟩, hi.same hS hm hrep k1 k2⟩
    · have hl : (stepE e.P.cmp m.items o).2 = m.items := stepE_none (by rw [hrep.items]; exact h1.1)
      exact ⟨s, ⟨k2.I.evo.obs, .inl ⟨.inr ⟨x, rfl, by rw [hrep.items]; exact h1.1, h1.2⟩, .inl ⟨hl, rfl⟩⟩⟩, hi.same hS hm hrep k1 k2⟩

theorem op_del {safe : Bool} (hp : DelPost e.P w (e.SP + (e.pages + (whole (a ++ b) + pagesB LK).2.2.1), e.fails) (whole (a ++ b) + pagesB LK) e.g o safe (step e.P.cmp e.P.τ fuel o w))
    (hd : Api.isDelete o) (hdi : Api.isDeleteByIndex o ↔ safe = false) (hro : Api.readOnly e.P.cmp m.items o → (stepE e.P.cmp m.items o).1 ≠ some (.done true)) :
    ∃ s', Api.opStep e.P.cfg w.env.faults s e.P.τ m o (obs w (reply .ans (step e.P.cmp e.P.τ fuel o) w)) s' ∧
      Inv cfg (n + 1) (reply .ans (step e.P.cmp e.P.τ fuel o) w).2 s' := by
  have hidle := (Still.step e.P.cmp e.P.τ fuel o).run w
  rcases hp.cases with ⟨x, w', e1, h1⟩ | ⟨x, w', e1, h1⟩
  · rw [reply_ok e1]
    rw [e1] at hidle
    rcases h1 with ⟨h1, h2, h5⟩ | ⟨er, rfl, h2, h6⟩
    · by_cases ht : (stepE e.P.cmp e.g.erase.flat o).1 = some (.done true)
      · rcases h2 with ⟨k0, g', k1, k2⟩ | ⟨H', g', h2, h3, h6, h4⟩
        · exact ⟨s, ⟨k2.I.evo.obs, .inl ⟨.inl ⟨x, rfl, by rw [hrep.items]; exact h1⟩, .inl ⟨by rw [hrep.items]; exact k0, rfl⟩⟩⟩, hi.same hS hm hrep k1 k2⟩
        · obtain ⟨m', c1, -, c2⟩ := hi.changed hS hm hrep h2 h6.1 h4
          rw [h3, ← hrep.items] at c1
          exact ⟨_, ⟨h4.I.evo.obs, .inl ⟨.inl ⟨x, rfl, by rw [hrep.items]; exact h1⟩, .inr ⟨fun h => absurd (hrep.items ▸ ht) (hro h), m', c1, rfl⟩⟩⟩, c2⟩
      · obtain ⟨g2, k1, k2⟩ := h5 ht
        refine ⟨s, ⟨k2.I.evo.obs, .inl ⟨.inl ⟨x, rfl, by rw [hrep.items]; exact h1⟩, .inl ⟨?_, rfl⟩⟩⟩, hi.same hS hm hrep k1 k2⟩
        rw [hrep.items]
        by_cases hn : (stepE e.P.cmp e.g.erase.flat o).1 = none
        · exact stepE_none hn
        · show (stepE e.P.cmp e.g.erase.flat o).2 = _
          clear h1 h2 h5 hp
          cases o <;> simp only [Api.isDelete] at hd <;> simp only [stepE, Op.key?, Spec.step] at ht hn ⊢ <;>
            (repeat' split at ht) <;> simp_all
    · refine ⟨_, ⟨hidle.obs, .inr (.inr ⟨er, Faulty.reading h2, .inr ⟨rfl, hd, by rw [hrep.items]; exact h6⟩, rfl⟩)⟩, hi.break hidle⟩
  · rw [reply_err e1]
    rw [e1] at hidle
    rcases h1 with ⟨h1, h2⟩ | ⟨h1, g2, k1, k2⟩
    · cases safe with
      | true =>
        obtain ⟨g2, k1, k2⟩ := h2 rfl
        exact ⟨s, ⟨k2.I.evo.obs, .inr (.inl ⟨x, rfl, Faulty.reading h1, fun h => by simpa using hdi.1 h, rfl⟩)⟩, hi.same hS hm hrep k1 k2⟩
      | false => exact ⟨_, ⟨hidle.obs, .inr (.inr ⟨x, Faulty.reading h1, .inl ⟨rfl, hdi.2 rfl⟩, rfl⟩)⟩, hi.break hidle⟩
    · have hl : (stepE e.P.cmp m.items o).2 = m.items := stepE_none (by rw [hrep.items]; exact h1.1)
      exact ⟨s, ⟨k2.I.evo.obs, .inl ⟨.inr ⟨x, rfl, by rw [hrep.items]; exact h1.1, h1.2⟩, .inl ⟨hl, rfl⟩⟩⟩, hi.same hS hm hrep k1 k2⟩

/-- Every operation. -/
theorem op_step (hf : e.P.max + n + 2 < fuel) (hk : ∀ k x, o = .put k x → e.P.Valid k ∨ m.items ≠ []) :
    ∃ s', Api.opStep e.P.cfg w.env.faults s e.P.τ m o (obs w (reply .ans (step e.P.cmp e.P.τ fuel o) w)) s' ∧
      Inv cfg (n + 1) (reply .ans (step e.P.cmp e.P.τ fuel o) w).2 s' := by
  have hr := hS.scene.focus
  have hH := hS.high e (by simp)
  cases o with
  | put k x =>
    by_cases hh : has e.P.cmp k m.items = true
    · refine op_read hi hS hm hrep (put_present hr (by omega) k x (by rw [← hrep.items]; exact hh)) ?_ (by simp [Api.isDeleteByIndex])
      simp only [stepE, Op.key?, Spec.step, hh, if_true]
      split <;> rfl
    · exact op_write hi hS hm hrep (put_run hr (by omega) k x (by rw [← hrep.items]; exact hk k x rfl)) hh (by simp [Api.isDeleteByIndex])
  | getByKey k => exact op_read hi hS hm hrep (getByKey_run hr (by omega) k) (by simp only [stepE, Op.key?, Spec.step]; split <;> rfl) (by simp [Api.isDeleteByIndex])
  | getByIndex i => exact op_read hi hS hm hrep (getByIndex_run hr (by omega) i) rfl (by simp [Api.isDeleteByIndex])
  | patchByKey k x => exact op_write hi hS hm hrep (patchByKey_run hr (by omega) k x) (by simp [Api.readOnly]) (by simp [Api.isDeleteByIndex])
  | patchByIndex i x => exact op_write hi hS hm hrep (patchByIndex_run hr (by omega) i x) (by simp [Api.readOnly]) (by simp [Api.isDeleteByIndex])
  | deleteByKey k => exact op_del hi hS hm hrep (deleteByKey_run hr (by omega) k) trivial (by simp [Api.isDeleteByIndex]) (fun h => h)
  | deleteByIndex i => exact op_del hi hS hm hrep (deleteByIndex_run hr (by omega) i) trivial (by simp [Api.isDeleteByIndex]) (fun h => h)
  | bisectLeft k => exact op_read hi hS hm hrep (bisectLeft_run hr (by omega) k) (by by_cases h1 : rejects e.P.cmp k m.items = true <;> by_cases h2 : has e.P.cmp k m.items = true <;> simp [stepE, Op.key?, Spec.step, h1, h2]) (by simp [Api.isDeleteByIndex])
  | bisectRight k => exact op_read hi hS hm hrep (bisectRight_run hr (by omega) k) (by by_cases h1 : rejects e.P.cmp k m.items = true <;> by_cases h2 : has e.P.cmp k m.items = true <;> simp [stepE, Op.key?, Spec.step, h1, h2]) (by simp [Api.isDeleteByIndex])
  | len => exact op_read hi hS hm hrep (len_run hr fuel) rfl (by simp [Api.isDeleteByIndex])
  | validate => exact op_read hi hS hm hrep (validate_run hr (by omega)) rfl (by simp [Api.isDeleteByIndex])

end

/-! ### Flush -/

theorem Dt.pages_fst {P P' : Par K} : ∀ {h : Nat} (d : Dt K V h) (b b' : Bool), (d.pages P b).map Prod.fst = (d.pages P' b').map Prod.fst := by
  intro h
  induction h with
  | zero =>
    intro d b b'
    obtain ⟨ref, l, rfl⟩ := d.cases0
    simp [pages_leaf]
  | succ h ih =>
    intro d b b'
    obtain ⟨ref, r, rfl⟩ := d.casesS
    rw [pages_inner, pages_inner, Multiset.map_cons, Multiset.map_cons]
    congr 1
    induction r.kids with
    | nil => rfl
    | cons c L ihl =>
      simp only [List.map_cons, List.sum_cons, Multiset.map_add, ihl]
      rw [ih c false false]

theorem SnapOK.det {P P' : Par K} {r : Ref} {sn : Api.Snap K V} {H H' : Nat} {d : Dt K V H} {d' : Dt K V H'} (h : SnapOK w P r sn d)
    (hr : d'.ref = r) (hd : ∀ p ∈ d'.pages P' true, w.disk p.1 = some p.2) : sn.items = d'.erase.flat ∧ sn.locs = (d'.pages P' true).map Prod.fst := by
  obtain ⟨rfl, he⟩ := Dt.det d d' true true (fun p hp => (h.disk p hp).1) hd (h.ref.trans hr.symm)
  dsimp only at he
  subst he
  exact ⟨h.items.symm, by rw [← h.locs]; exact Dt.pages_fst _ _ _⟩

theorem holds_here {t : TreeId} {m' : Api.Map K V} {r : Ref} (h : r ∈ m'.live ∨ r ∈ m'.old) : (s.set t (some m')).holds r :=
  .inr ⟨t, m', set_maps_same _ _ _, h⟩

theorem holds_sub {t : TreeId} {m m' : Api.Map K V} (hm : s.maps t = some m) {r : Ref} (hs : r ∈ m.live ∨ r ∈ m.old → r ∈ m'.live ∨ r ∈ m'.old)
    (h : s.holds r) : (s.set t (some m')).holds r := by
  rcases h with h | ⟨t', x, h1, h2⟩
  · exact .inl h
  · by_cases ht : t' = t
    · subst ht
      rw [hm, Option.some.injEq] at h1
      subst h1
      exact holds_here (hs h2)
    · exact .inr ⟨t', x, by rw [set_maps_ne _ _ ht]; exact h1, h2⟩

theorem Inv.onDisk (hi : Inv cfg n w s) {r : Ref} (h : s.holds r) : w.disk r ≠ none := by
  obtain ⟨A, -, h2, h3⟩ := hi.filed
  obtain ⟨p, hp, rfl⟩ := Multiset.mem_map.1 ((h3 r).2 h)
  rw [(h2 p hp).1]
  simp

theorem Grows.new {τ : TreeId} {N : Multiset (Ref × DiskNode K V)} {k : Nat} (hg : Grows τ w w' N k) (hi : Inv cfg n w s) : ∀ x ∈ N.map Prod.fst, ¬s.holds x := by
  intro x hx hh
  obtain ⟨p, hp, rfl⟩ := Multiset.mem_map.1 hx
  exact hi.onDisk hh (hg.fresh p hp).1

theorem Show.snap (h : Show cfg n w s L LK) (r : Ref) (sn : Api.Snap K V) : Show cfg n w (s.snap r sn) L LK :=
  ⟨h.scene, h.cfg, h.high, h.rep, h.only, h.lost⟩

/-- Pages of one tree are within what they all take up. -/
theorem Scene.mine (h : Scene w (a ++ e :: b) LK) : (e.pages.map Prod.fst).Nodup ∧ ∀ p ∈ e.pages, w.disk p.1 = some p.2 ∧ p.1.len ≠ 0 := by
  have : (whole (a ++ e :: b) + pagesB LK).2.2.1 = e.pages + (e.SP + (whole (a ++ b) + pagesB LK).2.2.1) := by
    simp only [Prod.snd_add, Prod.fst_add, whole_pages, List.map_append, List.map_cons, List.sum_append, List.sum_cons]
    abel
  have h1 := h.heap.nodup
  have h2 := h.heap.disk
  rw [this] at h1 h2
  rw [Multiset.map_add, Multiset.nodup_add] at h1
  exact ⟨h1.1, fun p hp => h2 p (Multiset.mem_add.2 (.inl hp))⟩

/-- A tree that is stored is a snapshot. -/
theorem Show.snapshot (h : Show cfg n w s (a ++ e :: b) LK) {r : Ref} (hr : e.g.st = some r) :
    ∃ d : Dt K V e.H, SnapOK w e.P r ⟨e.P.τ, e.g.erase.flat, e.pages.map Prod.fst⟩ d := by
  have ho := h.scene.ok e (by simp)
  obtain ⟨d, d1, d2, d3⟩ := Gt.stored e.g ho.clean ho.odds (by rw [hr]; rfl)
  have hp : e.pages = d.pages e.P true := d3 e.P ⟨none, true⟩
  obtain ⟨m1, m2⟩ := h.scene.mine
  rw [hr, Option.some.injEq] at d1
  refine ⟨d, d1.symm, by rw [d2], by rw [d2]; exact ho.ord, by rw [d2]; exact ho.occ, by rw [hp], m1, by rw [← hp]; exact m2⟩

section
variable (hi : Inv cfg n w s) (hS : Show cfg n w s (a ++ e :: b) LK) {m : Api.Map K V} (hm : s.maps e.P.τ = some m) (hrep : Rep e m)
  {fuel : Nat}
include hi hS hm hrep

theorem flush_new {g' : Gt K V e.H} {N : Multiset (Ref × DiskNode K V)} {k : Nat} (he : g'.erase = e.g.erase) (hg : Grows e.P.τ w w' N k)
    (hr : Rest e.P w' ((e.SP + (e.pages + (whole (a ++ b) + pagesB LK).2.2.1), e.fails) + (N, 0)) (whole (a ++ b) + pagesB LK) g' w')
    (hp : (bun e.P ⟨none, true⟩ g').2.2.1 = (bun e.P ⟨none, true⟩ e.g).2.2.1 + N) :
    ∃ SP, (Ent.pages ⟨e.P, e.H, g', SP, e.fails⟩).map Prod.fst = m.live + N.map Prod.fst ∧
      ∀ saved, saved = g'.st →
        Show cfg (n + 1) w' (s.set e.P.τ (some { m with live := m.live + N.map Prod.fst, saved := saved })) (a ++ ⟨e.P, e.H, g', SP, e.fails⟩ :: b) LK := by
  obtain ⟨SP, h1, h2⟩ := hS.put hr hg.others ((hS.high e (by simp)).trans (by omega))
  have hpg' : Ent.pages ⟨e.P, e.H, g', SP, e.fails⟩ = e.pages + N := hp
  have hpg : (Ent.pages ⟨e.P, e.H, g', SP, e.fails⟩).map Prod.fst = m.live + N.map Prod.fst := by
    rw [hpg', Multiset.map_add, hrep.live]
  have hsp : SP = e.SP := by
    have h3 : SP + (Ent.pages ⟨e.P, e.H, g', SP, e.fails⟩ + (whole (a ++ b) + pagesB LK).2.2.1) = e.SP + (e.pages + (whole (a ++ b) + pagesB LK).2.2.1) + N := h1
    rw [hpg', add_right_comm e.pages, ← add_assoc, ← add_assoc] at h3
    rw [← add_assoc] at h3
    exact add_right_cancel (add_right_cancel (add_right_cancel h3))
  exact ⟨SP, hpg, fun saved hsv => h2 _ ⟨by rw [hrep.items, ← he], hpg.symm, by rw [hrep.old, hsp], hsv, hrep.fails⟩⟩

theorem flush_step (size : DiskNode K V → Nat) (pg : Bool) (hf : e.P.max + n + 2 < fuel) :
    ∃ s', Api.mapStep e.P.cfg w.env.faults s e.P.τ m (obs w (reply .loc (flush size e.P.τ fuel pg) w)) s' (.flush e.P.τ pg) ∧
      Inv cfg (n + 1) (reply .loc (flush size e.P.τ fuel pg) w).2 s' := by
  have hH := hS.high e (by simp)
  have hcfg := hS.cfg e (by simp)
  rcases (flush_run size pg hS.scene.focus (by omega : e.H < fuel)).cases with ⟨r, w', e1, g', N, h1, h2, h3, h4, h5, h6⟩ | ⟨x, w', e1, hx, g', N, h2, h4, h5, h6⟩
  · rw [reply_ok e1]
    obtain ⟨SP, p1, p2⟩ := flush_new hi hS hm hrep h2.erase h4 h5 h6
    have hS' := p2 (some r) h1.symm
    obtain ⟨d, hd⟩ := hS'.snapshot h1
    have hsn : (⟨e.P.τ, m.items, m.live + N.map Prod.fst⟩ : Api.Snap K V) = ⟨e.P.τ, g'.erase.flat, (Ent.pages ⟨e.P, e.H, g', SP, e.fails⟩).map Prod.fst⟩ := by
      rw [p1, hrep.items, h2.erase]
    have hkeep : ∀ x, s.holds x → w'.disk x = w.disk x := fun x hx => h4.keep x (fun hm => h4.new hi x hm hx)
    have hnew : ∀ x ∈ m.live + N.map Prod.fst, (s.set e.P.τ (some { m with live := m.live + N.map Prod.fst, saved := some r })).holds x := fun x hx => holds_here (.inl hx)
    have hnewown : ∀ saved, Api.St.Owned (s.set e.P.τ (some { m with live := m.live + N.map Prod.fst, saved := saved })) := by
      refine fun saved => hi.owned.set hm fun r hr => ?_
      rcases hr with hr | hr
      · rcases Multiset.mem_add.1 hr with h | h
        · exact .inl (.inl h)
        · refine .inr fun r0 sn hsn hx => ?_
          obtain ⟨H0, d0, k1, k2, k3⟩ := hi.snaps r0 sn hsn
          exact h4.new hi r h (k3 r hx)
      · exact .inl (.inr hr)
    refine ⟨_, ⟨by simp [BT.obs, h4.discards], by simp [BT.obs, h4.log], N.map Prod.fst, .inl ⟨r, rfl, by simp [BT.obs, h4.puts], ?_, ?_, ⟨h4.new hi, fun x => ?_⟩, rfl⟩⟩, ?_⟩
    · intro r0 hr0
      have := hrep.saved.symm.trans hr0
      refine ⟨?_, by rw [h3 (by rw [this]; rfl)]; rfl⟩
      have e2 := h2.same (by rw [this]; rfl)
      rw [h1, this, Option.some.injEq] at e2
      exact e2
    · intro sn hsn'
      obtain ⟨H0, d0, k1, k2, k3⟩ := hi.snaps r sn hsn'
      have k2' : SnapOK w' (cfg sn.map) r sn d0 := ⟨k2.ref, k2.items, k2.ord, k2.occ, k2.locs, k2.nodup, fun p hp => by
        rw [hkeep p.1 (k3 _ (by rw [← k2.locs]; exact Multiset.mem_map_of_mem _ hp))]; exact k2.disk p hp⟩
      obtain ⟨q1, q2⟩ := k2'.det hd.ref (fun p hp => (hd.disk p hp).1)
      have hself : r ∈ m.live + N.map Prod.fst := by rw [← p1]; exact hd.self
      have hown : sn.map = e.P.τ := by
        refine hi.owned.mine r sn r e.P.τ m hsn' k2.self hm (.inl ?_)
        rcases Multiset.mem_add.1 hself with h | h
        · exact h
        · exact absurd (k3 r k2.self) (h4.new hi r h)
      obtain ⟨sm, si, sl⟩ := sn
      dsimp only at q1 q2 hown
      rw [hown, q1, q2, hd.locs, hd.items, hrep.items, ← p1, ← h2.erase]
    · rw [← p1]; exact hd.leads x
    · refine hi.next (hS'.snap r _) ((hnewown _).snap hS'.apart (set_maps_same _ _ _) (fun _ h => h) rfl) ?_ ?_
      · intro r' sn' hr'
        by_cases he : r' = r
        · subst he
          have : sn' = ⟨e.P.τ, m.items, m.live + N.map Prod.fst⟩ := by
            simp only [Api.St.snap, if_true, Option.some.injEq] at hr'
            exact hr'.symm
          subst this
          refine .inr ⟨e.H, d, by omega, ?_, hnew⟩
          rw [hsn]
          dsimp only
          rw [← hcfg]
          exact hd
        · have hr2 : s.snaps r' = some sn' := by
            simp only [Api.St.snap, if_neg he] at hr'
            exact hr'
          obtain ⟨H0, d0, k1, k2, k3⟩ := hi.snaps r' sn' hr2
          exact .inl ⟨hr2, fun x hx => ⟨hkeep x (k3 x hx), holds_sub hm (by rintro (h | h); exacts [.inl (Multiset.mem_add.2 (.inl h)), .inr h]) (k3 x hx)⟩⟩
      · intro hex x hx
        by_cases hn : x ∈ N.map Prod.fst
        · exact hnew x (Multiset.mem_add.2 (.inr hn))
        · rw [h4.keep x hn] at hx
          exact holds_sub hm (by rintro (h | h); exacts [.inl (Multiset.mem_add.2 (.inl h)), .inr h]) (hi.exact hex x hx)
  · rw [reply_err e1]
    obtain ⟨SP, p1, p2⟩ := flush_new hi hS hm hrep h2.erase h4 h5 h6
    have hsv : m.saved = none := hrep.saved.trans h2.was
    have hS' := p2 m.saved (hsv.trans h2.still.symm)
    have hkeep : ∀ x, s.holds x → w'.disk x = w.disk x := fun x hx => h4.keep x (fun hm => h4.new hi x hm hx)
    have hnewown : ∀ saved, Api.St.Owned (s.set e.P.τ (some { m with live := m.live + N.map Prod.fst, saved := saved })) := by
      refine fun saved => hi.owned.set hm fun r hr => ?_
      rcases hr with hr | hr
      · rcases Multiset.mem_add.1 hr with h | h
        · exact .inl (.inl h)
        · refine .inr fun r0 sn hsn hx => ?_
          obtain ⟨H0, d0, k1, k2, k3⟩ := hi.snaps r0 sn hsn
          exact h4.new hi r h (k3 r hx)
      · exact .inl (.inr hr)
    refine ⟨_, ⟨by simp [BT.obs, h4.discards], by simp [BT.obs, h4.log], N.map Prod.fst, .inr ⟨?_, hsv, h4.new hi, rfl⟩⟩, ?_⟩
    · rcases hx with rfl | ⟨rfl, hx⟩
      · exact .inl ⟨rfl, by simp [BT.obs, h4.puts, misses]; omega⟩
      · exact .inr ⟨rfl, hx, by simp [BT.obs, h4.puts, misses]⟩
    refine hi.next hS' (hnewown _) ?_ ?_
    · intro r' sn' hr2
      obtain ⟨H0, d0, k1, k2, k3⟩ := hi.snaps r' sn' hr2
      exact .inl ⟨hr2, fun x hx => ⟨hkeep x (k3 x hx), holds_sub hm (by rintro (h | h); exacts [.inl (Multiset.mem_add.2 (.inl h)), .inr h]) (k3 x hx)⟩⟩
    · intro hex x hx
      by_cases hn : x ∈ N.map Prod.fst
      · exact holds_here (.inl (Multiset.mem_add.2 (.inr hn)))
      · rw [h4.keep x hn] at hx
        exact holds_sub hm (by rintro (h | h); exacts [.inl (Multiset.mem_add.2 (.inl h)), .inr h]) (hi.exact hex x hx)

end

/-! ### The other calls on a map -/

theorem Inv.mono (hi : Inv cfg n w s) {n' : Nat} (hn : n ≤ n') : Inv cfg n' w s :=
  ⟨hi.filed, hi.apart, fun r sn h => by obtain ⟨H, d, h1, h2⟩ := hi.snaps r sn h; exact ⟨H, d, h1.trans hn, h2⟩, hi.owned, hi.exact,
   fun h => by obtain ⟨L, LK, h1⟩ := hi.shows h; exact ⟨L, LK, h1.mono hn⟩⟩

section
variable (hi : Inv cfg n w s) (hS : Show cfg n w s (a ++ e :: b) LK) {m : Api.Map K V} (hm : s.maps e.P.τ = some m) (hrep : Rep e m)
  {fuel : Nat}
include hi hS hm hrep

theorem purge_step (full : Bool) (hf : e.P.max + n + 2 < fuel) :
    ∃ s', Api.mapStep e.P.cfg w.env.faults s e.P.τ m (obs w (reply (fun _ => .unit) (purge e.P.τ fuel full) w)) s' (.purge e.P.τ full) ∧
      Inv cfg (n + 1) (reply (fun _ => .unit) (purge e.P.τ fuel full) w).2 s' := by
  have hH := hS.high e (by simp)
  rcases (purge_run hS.scene.focus (by omega : e.H < fuel) full).cases with ⟨_, w', e1, h0, g', h1, -, -, h2⟩ | ⟨x, w', e1, rfl, h1, h2, rfl⟩
  · rw [reply_ok e1]
    refine ⟨s, ⟨h2.I.evo.obs, rfl, .inl ⟨?_, rfl⟩⟩, hi.same hS hm hrep h1 h2⟩
    rintro ⟨k1, k2⟩
    have := h0 k1
    rw [← hrep.saved, k2] at this
    cases this
  · rw [reply_err e1]
    exact ⟨s, ⟨(Quiet.refl e.P.τ _).obs, rfl, .inr ⟨⟨h1, hrep.saved.trans h2⟩, _, rfl⟩⟩, hi.mono (by omega)⟩

theorem touch_step (hf : e.P.max + n + 2 < fuel) :
    ∃ s', Api.mapStep e.P.cfg w.env.faults s e.P.τ m (obs w (reply (fun _ => .unit) (touch e.P.cmp e.P.τ fuel) w)) s' (.touch e.P.τ) ∧
      Inv cfg (n + 1) (reply (fun _ => .unit) (touch e.P.cmp e.P.τ fuel) w).2 s' := by
  have hH := hS.high e (by simp)
  rcases (touch_run hS.scene.focus (by omega : e.H < fuel)).cases with ⟨_, w', e1, g', h1, h2, h3, h4⟩ | ⟨x, w', e1, h0, g', h1, rfl | h2, h4⟩
  · rw [reply_ok e1]
    obtain ⟨m', ⟨c1, c2, c3, -, c6⟩, c4, c5⟩ := hi.changed hS hm hrep (Nat.le_succ _) h2 h4
    refine ⟨_, ⟨h4.I.evo.obs, .inl ⟨rfl, ?_⟩⟩, c5⟩
    obtain ⟨i', l', o', s', f'⟩ := m'
    obtain ⟨i, l, o, sv, f⟩ := m
    have h3' := h3 ⟨none, true⟩
    simp only [h3', Multiset.map_zero] at c4
    simp only [c4, zero_add] at c2
    have := hrep.items
    simp only at c1 c3 c6 this
    rw [h1.erase, ← this] at c1
    rw [c1, c2, c3, c4, c6, add_comm l o]
  · rw [reply_err e1]
    exact ⟨s, ⟨h4.I.evo.obs, .inr ⟨x, rfl, Faulty.reading h0, .inl rfl⟩⟩, hi.same hS hm hrep (.refl _) h4⟩
  · rw [reply_err e1]
    obtain ⟨m', c1, -, c5⟩ := hi.changed hS hm hrep (Nat.le_succ _) h2 h4
    rw [h1.erase, ← hrep.items] at c1
    exact ⟨_, ⟨h4.I.evo.obs, .inr ⟨x, rfl, Faulty.reading h0, .inr ⟨m', c1, rfl⟩⟩⟩, c5⟩

theorem touchItem_step (i : Nat) (hf : e.P.max + n + 2 < fuel) :
    ∃ s', Api.mapStep e.P.cfg w.env.faults s e.P.τ m (obs w (reply .index (touchItem e.P.cmp e.P.τ fuel i) w)) s' (.touchItem e.P.τ i) ∧
      Inv cfg (n + 1) (reply .index (touchItem e.P.cmp e.P.τ fuel i) w).2 s' := by
  have hH := hS.high e (by simp)
  rcases (touchItem_run hS.scene.focus (by omega : e.H + e.P.max < fuel) i).cases with ⟨_, w', e1, ⟨h1, rfl, rfl⟩ | ⟨x, l, y, g', h1, h2, h3, rfl, h4, h7, h5, h6, -⟩⟩ | ⟨x, w', e1, h0, g', h1, h4⟩
  · rw [reply_ok e1]
    exact ⟨s, ⟨(Quiet.refl e.P.τ _).obs, .inl ⟨by rw [hrep.items]; exact h1, rfl, rfl⟩⟩, hi.mono (by omega)⟩
  · rw [reply_ok e1]
    obtain ⟨m', c1, c2, c5⟩ := hi.changed hS hm hrep (Nat.le_succ _) h7.1 h5
    rw [h4.erase, ← hrep.items] at c1
    refine ⟨_, ⟨h5.I.evo.obs, .inr (.inl ⟨_, h3, ?_, rfl, m', c1, ?_, rfl⟩)⟩, c5⟩
    · rw [hrep.items, h1, List.length_append, List.length_append]; omega
    · rw [c2, hrep.live]; exact Multiset.map_le_map h6
  · rw [reply_err e1]
    exact ⟨s, ⟨h4.I.evo.obs, .inr (.inr ⟨x, rfl, Faulty.reading h0, rfl⟩)⟩, hi.same hS hm hrep h1 h4⟩

theorem layout_step (hf : e.P.max + n + 2 < fuel) :
    ∃ s', Api.mapStep e.P.cfg w.env.faults s e.P.τ m (obs w (reply .layout (fetchLayoutReport e.P.cmp e.P.τ fuel) w)) s' (.layout e.P.τ) ∧
      Inv cfg (n + 1) (reply .layout (fetchLayoutReport e.P.cmp e.P.τ fuel) w).2 s' := by
  have hH := hS.high e (by simp)
  rcases (fetchLayoutReport_run hS.scene.focus (by omega : e.H < fuel)).cases with ⟨_, w', e1, rfl, g', ⟨h1, -⟩, h2⟩ | ⟨x, w', e1, h0, g', h1, h2⟩
  · rw [reply_ok e1]
    exact ⟨s, ⟨h2.I.evo.obs, rfl, .inl (by rw [hrep.live]; rfl)⟩, hi.same hS hm hrep h1 h2⟩
  · rw [reply_err e1]
    exact ⟨s, ⟨h2.I.evo.obs, rfl, .inr ⟨x, rfl, Faulty.reading h0⟩⟩, hi.same hS hm hrep h1 h2⟩

theorem dimensions_step (hf : e.P.max + n + 2 < fuel) :
    ∃ s', Api.mapStep e.P.cfg w.env.faults s e.P.τ m (obs w (reply .dimensions (fetchDimensionsReport e.P.cmp e.P.τ fuel) w)) s' (.dimensions e.P.τ) ∧
      Inv cfg (n + 1) (reply .dimensions (fetchDimensionsReport e.P.cmp e.P.τ fuel) w).2 s' := by
  have hH := hS.high e (by simp)
  rcases (fetchDimensionsReport_run hS.scene.focus (by omega : e.H < fuel)).cases with ⟨_, w', e1, rfl, g', h1, h2⟩ | ⟨x, w', e1, h0, g', h1, h2⟩
  · rw [reply_ok e1]
    have hb := (hS.scene.ok e (by simp)).occ.bounds
    refine ⟨s, ⟨h2.I.evo.obs, rfl, .inl ⟨e.H + 1, by rw [hrep.items]; rfl, by omega, by rw [hrep.items]; exact hb.1, fun h2 => ?_⟩⟩, hi.same hS hm hrep h1 h2⟩
    have := hb.2 (by omega)
    rw [hrep.items, show e.H + 1 - 2 = e.H - 1 by omega]
    exact this
  · rw [reply_err e1]
    exact ⟨s, ⟨h2.I.evo.obs, rfl, .inr ⟨x, rfl, Faulty.reading h0⟩⟩, hi.same hS hm hrep h1 h2⟩

theorem dump_step (cb : DumpCb K V) (hf : e.P.max + n + 2 < fuel) :
    ∃ s', Api.mapStep e.P.cfg w.env.faults s e.P.τ m (obs w (reply .dumped (dump e.P.cmp cb e.P.τ fuel) w)) s' (.dump e.P.τ cb) ∧
      Inv cfg (n + 1) (reply .dumped (dump e.P.cmp cb e.P.τ fuel) w).2 s' := by
  have hH := hS.high e (by simp)
  rcases (dump_run (cb := cb) hS.scene.focus (by omega : e.H < fuel)).cases with ⟨d, w', e1, h0, g', h1, h2⟩ | ⟨_, _, _, h0⟩
  · rw [reply_ok e1]
    refine ⟨s, ⟨h2.I.evo.obs, rfl, d, rfl, by rw [hrep.items]; exact h0.part, fun a b c => ?_, fun x hx => ?_⟩, hi.same hS hm hrep h1 h2⟩
    · rw [hrep.items]; exact h0.all ⟨fun x hx => a x (Faulty.reading hx), b, c⟩
    · exact (h0.err x hx).imp Faulty.reading id
  · exact h0.elim

theorem location_step :
    ∃ s', Api.mapStep e.P.cfg w.env.faults s e.P.τ m (obs w (reply .loc (fetchLocation e.P.τ) w)) s' (.location e.P.τ) ∧
      Inv cfg (n + 1) (reply .loc (fetchLocation e.P.τ) w).2 s' := by
  rw [reply_ok (fetchLocation_run hS.scene.focus)]
  exact ⟨s, ⟨(Quiet.refl e.P.τ _).obs, by rw [hrep.saved]; rfl, rfl⟩, hi.mono (by omega)⟩

end

/-! ### Discarding -/

theorem forget_snaps {D : Multiset Ref} {r : Ref} {sn : Api.Snap K V} : (s.forget D).snaps r = some sn ↔ s.snaps r = some sn ∧ Disjoint sn.locs D := by
  have e0 : (s.forget D).snaps r = match s.snaps r with | some sn => (open Classical in if Disjoint sn.locs D then some sn else none) | none => none := rfl
  rw [e0]
  rcases s.snaps r with _ | x
  · simp
  · dsimp only
    by_cases hd : Disjoint x.locs D
    · rw [if_pos hd, Option.some.injEq]; exact ⟨fun e => ⟨e, e ▸ hd⟩, fun e => e.1⟩
    · rw [if_neg hd, Option.some.injEq]; exact ⟨fun e => (by cases e), fun e => absurd (e.1 ▸ e.2) hd⟩

theorem Show.forget (h : Show cfg n w s L LK) (D : Multiset Ref) : Show cfg n w (s.forget D) L LK :=
  ⟨h.scene, h.cfg, h.high, h.rep, h.only, h.lost⟩

theorem _root_.SM.Api.St.Owned.forget (h : s.Owned) (D : Multiset Ref) : (s.forget D).Owned :=
  ⟨fun r sn x t m hr hl hm hx => h.mine r sn x t m (forget_snaps.1 hr).1 hl hm hx,
   fun r1 sn1 r2 sn2 x h1 h2 => h.same r1 sn1 r2 sn2 x (forget_snaps.1 h1).1 (forget_snaps.1 h2).1⟩

/-- Some locations of a map are no longer accounted for. -/
theorem holds_drop {t : TreeId} {m m' : Api.Map K V} {D : Multiset Ref} (hap : s.Apart) (hm : s.maps t = some m) (hD : m'.live + m'.old + D = m.live + m.old) {r : Ref} :
    (s.set t (some m')).holds r ↔ s.holds r ∧ r ∉ D := by
  obtain ⟨h1, h2⟩ := hap t m hm
  rw [← hD, Multiset.nodup_add] at h1
  have hin : ∀ x, x ∈ m.live ∨ x ∈ m.old ↔ (x ∈ m'.live ∨ x ∈ m'.old) ∨ x ∈ D := by
    intro x
    rw [← Multiset.mem_add, ← hD, Multiset.mem_add, Multiset.mem_add]
  constructor
  · rintro (h | ⟨t', x, k1, k2⟩)
    · refine ⟨.inl h, fun hd => (h2 r ?_).1 h⟩
      rw [← hD]; exact Multiset.mem_add.2 (.inr hd)
    · by_cases ht : t' = t
      · subst ht
        rw [set_maps_same, Option.some.injEq] at k1
        subst k1
        exact ⟨.inr ⟨_, m, hm, (hin r).2 (.inl k2)⟩, Multiset.disjoint_left.1 h1.2.2 (Multiset.mem_add.2 k2)⟩
      · rw [set_maps_ne _ _ ht] at k1
        refine ⟨.inr ⟨_, x, k1, k2⟩, fun hd => (h2 r ?_).2 t' x k1 ht (Multiset.mem_add.2 k2)⟩
        rw [← hD]; exact Multiset.mem_add.2 (.inr hd)
  · rintro ⟨h, hd⟩
    exact holds_sub hm (fun hx => ((hin r).1 hx).resolve_right hd) h

theorem holds_close {t : TreeId} {m : Api.Map K V} (hap : s.Apart) (hm : s.maps t = some m) {r : Ref} :
    (s.set t none).holds r ↔ s.holds r ∧ r ∉ m.live + m.old := by
  obtain ⟨h1, h2⟩ := hap t m hm
  constructor
  · rintro (h | ⟨t', x, k1, k2⟩)
    · exact ⟨.inl h, fun hd => (h2 r hd).1 h⟩
    · by_cases ht : t' = t
      · subst ht
        rw [set_maps_same] at k1
        cases k1
      · rw [set_maps_ne _ _ ht] at k1
        exact ⟨.inr ⟨_, x, k1, k2⟩, fun hd => (h2 r hd).2 t' x k1 ht (Multiset.mem_add.2 k2)⟩
  · rintro ⟨h | ⟨t', x, k1, k2⟩, hd⟩
    · exact .inl h
    · by_cases ht : t' = t
      · subst ht
        rw [hm, Option.some.injEq] at k1
        subst k1
        exact absurd (Multiset.mem_add.2 k2) hd
      · exact .inr ⟨t', x, by rw [set_maps_ne _ _ ht]; exact k1, k2⟩

theorem apart_drop {t : TreeId} {m m' : Api.Map K V} (hap : s.Apart) (hm : s.maps t = some m) (hD : m'.live + m'.old ≤ m.live + m.old) :
    (s.set t (some m')).Apart := by
  intro t1 m1 h1
  by_cases ht : t1 = t
  · subst ht
    rw [set_maps_same, Option.some.injEq] at h1
    subst h1
    obtain ⟨k1, k2⟩ := hap t1 m hm
    refine ⟨Multiset.nodup_of_le hD k1, fun x hx => ⟨(k2 x (Multiset.mem_of_le hD hx)).1, fun t' m'' h' hne => ?_⟩⟩
    rw [set_maps_ne _ _ hne] at h'
    exact (k2 x (Multiset.mem_of_le hD hx)).2 t' m'' h' hne
  · rw [set_maps_ne _ _ ht] at h1
    obtain ⟨k1, k2⟩ := hap t1 m1 h1
    refine ⟨k1, fun x hx => ⟨(k2 x hx).1, fun t' m'' h' hne => ?_⟩⟩
    by_cases ht' : t' = t
    · subst ht'
      rw [set_maps_same, Option.some.injEq] at h'
      subst h'
      exact fun hx' => (k2 x hx).2 t' m hm hne (Multiset.mem_of_le hD hx')
    · rw [set_maps_ne _ _ ht'] at h'
      exact (k2 x hx).2 t' m'' h' hne

theorem gone_dropped {l : List Ref} {k : Nat} {σ : TreeId} {t : TreeS} {out : Out (Api.Reply K V)} {w1 : World K V} (h1 : w1.log = w.log) :
    (obs w (out, (dropped w1 l k).setT σ t)).gone = l.reverse ∧ (obs w (out, dropped w1 l k)).gone = l.reverse := by
  simp [BT.obs, dropped, World.setT, h1]

section
variable (hi : Inv cfg n w s) (hS : Show cfg n w s (a ++ e :: b) LK) {m : Api.Map K V} (hm : s.maps e.P.τ = some m) (hrep : Rep e m)
  {fuel : Nat}
include hi hS hm hrep

theorem prune_step (hT : m.fails = 0) :
    ∃ s', Api.mapStep e.P.cfg w.env.faults s e.P.τ m (obs w (reply (fun _ => .unit) (prune e.P.τ) w)) s' (.prune e.P.τ) ∧
      Inv cfg (n + 1) (reply (fun _ => .unit) (prune e.P.τ) w).2 s' := by
  have hr := hS.scene.focus
  have hH := hS.high e (by simp)
  have ho := hS.scene.ok e (by simp)
  have hst : (((w.trees e.P.τ).stale : List Ref) : Multiset Ref) = m.old := by rw [hrep.old]; exact ho.stale (hrep.fails ▸ hT)
  have hmem : ∀ x, x ∈ (w.trees e.P.τ).stale ↔ x ∈ m.old := fun x => by rw [← hst]; simp
  rcases (prune_run hr.I (hrep.fails ▸ hT)).cases with ⟨_, w', e1, l, hl, rfl, hI⟩ | ⟨x, w', e1, rfl, h1, pre, r, post, h2, rfl, SP, h3, hI⟩
  · rw [reply_ok e1]
    refine ⟨_, ⟨by simp [BT.obs, dropped, World.setT], .inl ⟨rfl, ?_, ?_, rfl⟩⟩, ?_⟩
    · rw [← hst]; simp [BT.obs, dropped, World.setT, hl.length_eq]
    · rw [(gone_dropped rfl).1, Multiset.coe_reverse, Multiset.coe_eq_coe.2 hl]; exact hst
    · have hr' := (⟨hI, hr.clean, hr.odds, hr.occ, hr.ord⟩ : Rest e.P _ _ (whole (a ++ b) + pagesB LK) e.g _)
      obtain ⟨SP, p1, p2⟩ := hS.put hr' (fun σ hσ => by rw [setT_trees, upd_ne _ _ hσ]; rfl) (by omega)
      have hz : SP = 0 := by
        have : SP + (Ent.pages ⟨e.P, e.H, e.g, SP, 0⟩ + (whole (a ++ b) + pagesB LK).2.2.1) = 0 + (Ent.pages ⟨e.P, e.H, e.g, SP, 0⟩ + (whole (a ++ b) + pagesB LK).2.2.1) := by
          rw [p1]; simp [Ent.pages, slotB_3]
        exact add_right_cancel this
      have hS' := p2 { m with old := 0 } ⟨hrep.items, hrep.live, by rw [hz]; rfl, hrep.saved, hT⟩
      have hh : ∀ x, (s.set e.P.τ (some { m with old := 0 })).holds x ↔ s.holds x ∧ x ∉ m.old := fun x => holds_drop hi.apart hm (by simp)
      refine hi.next (hS'.forget m.old) ((hi.owned.set hm fun r hr => .inl (hr.imp id (fun h => absurd h (Multiset.notMem_zero _)))).forget _) ?_ ?_
      · intro r sn hr
        obtain ⟨k1, k2⟩ := forget_snaps.1 hr
        obtain ⟨H0, d0, -, -, k3⟩ := hi.snaps r sn k1
        refine .inl ⟨k1, fun x hx => ⟨?_, (hh x).2 ⟨k3 x hx, Multiset.disjoint_left.1 k2 hx⟩⟩⟩
        have : x ∉ l := fun h => Multiset.disjoint_left.1 k2 hx ((hmem x).1 (hl.subset h))
        simp [dropped, World.setT, this]
      · intro hex x hx
        by_cases hxs : x ∈ l
        · simp [dropped, World.setT, hxs] at hx
        · simp only [dropped, World.setT, if_neg hxs] at hx
          exact (hh x).2 ⟨hi.exact hex x hx, fun h => hxs (hl.mem_iff.2 ((hmem x).2 h))⟩
  · rw [reply_err e1]
    have hD : ((pre : List Ref) : Multiset Ref) + ((r :: post : List Ref) : Multiset Ref) = m.old := by rw [← hst, ← Multiset.coe_eq_coe.2 h2, Multiset.coe_add]
    have hh : ∀ x, (s.set e.P.τ (some { m with old := ((r :: post : List Ref) : Multiset Ref), fails := 1 })).holds x ↔ s.holds x ∧ x ∉ (pre : Multiset Ref) :=
      fun x => holds_drop hi.apart hm (by rw [← hD]; show _ + _ + _ = _; rw [add_assoc]; congr 1; rw [add_comm])
    have hg : ((pre.reverse : List Ref) : Multiset Ref) = (pre : Multiset Ref) := Multiset.coe_reverse _
    refine ⟨_, ⟨by simp [BT.obs, dropped], .inr ⟨rfl, h1, ?_, ((r :: post : List Ref) : Multiset Ref), ?_, by simp, rfl⟩⟩, ?_⟩
    · rw [(gone_dropped (σ := 0) (t := w.trees 0) rfl).2]
      simp [BT.obs, dropped]; omega
    · rw [(gone_dropped (σ := 0) (t := w.trees 0) rfl).2, hg, hD]
    · have hgone := (gone_dropped (w := w) (k := 1) (l := pre) (out := (.err .discardNode : Out (Api.Reply K V))) (σ := 0) (t := w.trees 0) (w1 := w) rfl).2
      have hgs : ((obs w ((Out.err .discardNode : Out (Api.Reply K V)), dropped w pre 1)).gone : Multiset Ref) = (pre : Multiset Ref) := by rw [hgone]; exact hg
      have hr' := (⟨hI, hr.clean, hr.odds, hr.occ, hr.ord⟩ : Rest e.P _ _ (whole (a ++ b) + pagesB LK) e.g _)
      obtain ⟨SP', p1, p2⟩ := hS.put hr' (fun σ _ => rfl) (by omega)
      have hz : SP' = SP := by
        have : SP' + (Ent.pages ⟨e.P, e.H, e.g, SP', 1⟩ + (whole (a ++ b) + pagesB LK).2.2.1) = SP + (Ent.pages ⟨e.P, e.H, e.g, SP', 1⟩ + (whole (a ++ b) + pagesB LK).2.2.1) := by
          rw [p1]; simp [Ent.pages, slotB_3]
        exact add_right_cancel this
      have hS' := p2 { m with old := ((r :: post : List Ref) : Multiset Ref), fails := 1 } ⟨hrep.items, hrep.live, by rw [hz]; exact h3.symm, hrep.saved, rfl⟩
      rw [hgs]
      have how : Api.St.Owned (s.set e.P.τ (some { m with old := ((r :: post : List Ref) : Multiset Ref), fails := 1 })) :=
        hi.owned.set hm fun x hx => .inl (hx.imp id fun h => by rw [← hD]; exact Multiset.mem_add.2 (.inr h))
      refine hi.next (hS'.forget (pre : Multiset Ref)) (how.forget _) ?_ ?_
      · intro r sn hr
        obtain ⟨k1, k2⟩ := forget_snaps.1 hr
        obtain ⟨H0, d0, -, -, k3⟩ := hi.snaps r sn k1
        refine .inl ⟨k1, fun x hx => ⟨?_, (hh x).2 ⟨k3 x hx, Multiset.disjoint_left.1 k2 hx⟩⟩⟩
        have : x ∉ pre := fun h => Multiset.disjoint_left.1 k2 hx (Multiset.mem_coe.2 h)
        simp [dropped, this]
      · intro hex x hx
        by_cases hxs : x ∈ pre
        · simp [dropped, hxs] at hx
        · simp only [dropped, if_neg hxs] at hx
          exact (hh x).2 ⟨hi.exact hex x hx, fun h => hxs (Multiset.mem_coe.1 h)⟩

theorem discard_step (hT : m.fails = 0) (hf : e.P.max + n + 2 < fuel) (h1 : ¬w.env.faults.getNode) (h2 : ¬w.env.faults.codec) (h3 : ¬w.env.faults.discardNode) :
    ∃ s', Api.mapStep e.P.cfg w.env.faults s e.P.τ m (obs w (reply (fun _ => .unit) (discard e.P.cmp e.P.τ fuel) w)) s' (.discard e.P.τ) ∧
      Inv cfg (n + 1) (reply (fun _ => .unit) (discard e.P.cmp e.P.τ fuel) w).2 s' := by
  have hr := hS.scene.focus
  have hH := hS.high e (by simp)
  obtain ⟨w1, w', l, hl, e1, q1, ⟨SP, q2, q3⟩, rfl, q4, q5, q6⟩ := discard_run hr (hrep.fails ▸ hT) (by omega : e.H < fuel)
    (fun k => by exact Bool.eq_false_iff.2 fun h => h1 ⟨k, h⟩) (fun k => by exact Bool.eq_false_iff.2 fun h => h2 ⟨k, h⟩)
    (fun k => by exact Bool.eq_false_iff.2 fun h => h3 ⟨k, h⟩)
  have hSP : SP = e.SP + e.pages := by rw [← add_assoc] at q3; exact add_right_cancel q3
  have hD : ((l : List Ref) : Multiset Ref) = m.live + m.old := by
    rw [Multiset.coe_eq_coe.2 hl, q2, hSP, Multiset.map_add, hrep.live, hrep.old, add_comm]
  have hmem : ∀ x, x ∈ l ↔ x ∈ m.live + m.old := fun x => by rw [← hD]; simp
  rw [reply_ok e1]
  refine ⟨_, ⟨?_, rfl, ?_, ?_, rfl⟩, ?_⟩
  · simp [BT.obs, dropped, World.setT, q1.puts]
  · rw [(gone_dropped q1.log).1, Multiset.coe_reverse]; exact hD
  · rw [(gone_dropped q1.log).1]; simp [BT.obs, dropped, World.setT, q1.discards]
  · have hn : ((whole (a ++ b) + pagesB LK).2.2.1.map Prod.fst).Nodup := by
      have := hr.I.nodup
      rw [Multiset.map_add, Multiset.nodup_add, Multiset.map_add, Multiset.nodup_add] at this
      exact this.2.1.2.1
    have hmid := hS.scene.mid
    have hall : ∀ x ∈ a ++ b, x ∈ a ++ e :: b := fun x hx => by rw [List.mem_append, List.mem_cons]; rw [List.mem_append] at hx; tauto
    have hS' : Show cfg (n + 1) ((dropped w1 l 0).setT e.P.τ { w1.trees e.P.τ with root := none, stale := [], cached := false })
        (s.set e.P.τ none) (a ++ b) LK := by
      refine ⟨⟨⟨q4, q5, hn, q6⟩, ?_, ?_⟩, fun x hx => hS.cfg x (hall x hx), fun x hx => (hS.high x (hall x hx)).trans (by omega), ?_, ?_, hS.lost⟩
      · have := hS.scene.nodup
        rw [List.map_append, List.map_cons, List.nodup_middle, List.nodup_cons, ← List.map_append] at this
        exact this.2
      · intro x hx
        refine (hS.scene.ok x (hall x hx)).congr ?_
        rw [setT_trees, upd_ne _ _ (hmid x hx)]
        exact q1.others _ (hmid x hx)
      · intro x hx
        rw [set_maps_ne _ _ (hmid x hx)]
        exact hS.rep x (hall x hx)
      · intro t m' hm'
        by_cases ht : t = e.P.τ
        · subst ht; rw [set_maps_same] at hm'; cases hm'
        · rw [set_maps_ne _ _ ht] at hm'
          obtain ⟨x, hx, rfl⟩ := hS.only t m' hm'
          refine ⟨x, ?_, rfl⟩
          rw [List.mem_append, List.mem_cons] at hx
          rw [List.mem_append]
          rcases hx with hx | rfl | hx
          · exact .inl hx
          · exact absurd rfl ht
          · exact .inr hx
    have hh : ∀ x, (s.set e.P.τ none).holds x ↔ s.holds x ∧ x ∉ m.live + m.old := fun x => holds_close hi.apart hm
    have hown : Api.St.Owned (s.set e.P.τ none) := by
      refine ⟨fun r sn x t1 m1 hr hl hm1 hx => ?_, hi.owned.same⟩
      by_cases ht : t1 = e.P.τ
      · subst ht; rw [set_maps_same] at hm1; cases hm1
      · rw [set_maps_ne _ _ ht] at hm1
        exact hi.owned.mine r sn x t1 m1 hr hl hm1 hx
    refine hi.next (hS'.forget _) (hown.forget _) ?_ ?_
    · intro r sn hr
      obtain ⟨k1, k2⟩ := forget_snaps.1 hr
      obtain ⟨H0, d0, -, -, k3⟩ := hi.snaps r sn k1
      refine .inl ⟨k1, fun x hx => ⟨?_, (hh x).2 ⟨k3 x hx, Multiset.disjoint_left.1 k2 hx⟩⟩⟩
      have : x ∉ l := fun h => Multiset.disjoint_left.1 k2 hx ((hmem x).1 h)
      simp [dropped, World.setT, this, q1.disk]
    · intro hex x hx
      by_cases hxs : x ∈ l
      · simp [dropped, World.setT, hxs] at hx
      · simp only [dropped, World.setT, if_neg hxs, q1.disk] at hx
        exact (hh x).2 ⟨hi.exact hex x hx, fun h => hxs ((hmem x).2 h)⟩

end

/-! ### Opening maps -/

/-- A tree is opened. -/
theorem Show.open (hS : Show cfg n w s L LK) {P : Par K} {H : Nat} {g : Gt K V H} {LK' : Multiset (Ref × DiskNode K V)} {m : Api.Map K V}
    (hcfg : P = cfg P.τ) (hno : s.maps P.τ = none) (hheap : Heap w' (bun P ⟨none, true⟩ g + (slotB {g.id} + (whole L + pagesB LK'))))
    (ht : w'.trees P.τ = { min := P.min, max := P.max, root := some g.id, stale := [], cached := P.ca }) (ho : ∀ σ, σ ≠ P.τ → w'.trees σ = w.trees σ)
    (h1 : g.Clean) (h2 : g.odds = 0) (h3 : g.erase.RootOcc P.min P.max) (h4 : Ord P.toCmp g.erase.seq) (hH : H ≤ n + 1) (hrep : Rep ⟨P, H, g, 0, 0⟩ m)
    (hs' : s'.maps = (s.set P.τ (some m)).maps) (hl : ∀ r, r ∈ LK'.map Prod.fst ↔ s'.lost r) : Show cfg (n + 1) w' s' (⟨P, H, g, 0, 0⟩ :: L) LK' := by
  have hne : ∀ x ∈ L, x.P.τ ≠ P.τ := by
    intro x hx he
    obtain ⟨m', k1, -⟩ := hS.rep x hx
    rw [he, hno] at k1
    cases k1
  refine ⟨⟨hheap.eq (by simp only [whole_cons, Ent.F, pagesB]; show _ = _ + (_ + (0 : B K V)) + _ + _; abel), ?_, ?_⟩, ?_, ?_, ?_, ?_, hl⟩
  · rw [List.map_cons, List.nodup_cons]
    refine ⟨fun h => ?_, hS.scene.nodup⟩
    obtain ⟨x, hx, he⟩ := List.mem_map.1 h
    exact hne x hx he
  · simp only [List.mem_cons, forall_eq_or_imp]
    exact ⟨⟨by rw [ht], fun _ => by rw [ht]; rfl, by rw [ht], by rw [ht], by rw [ht], h1, h2, h3, h4⟩, fun x hx => (hS.scene.ok x hx).congr (ho _ (hne x hx))⟩
  · simp only [List.mem_cons, forall_eq_or_imp]
    exact ⟨hcfg, hS.cfg⟩
  · simp only [List.mem_cons, forall_eq_or_imp]
    exact ⟨hH, fun x hx => (hS.high x hx).trans (by omega)⟩
  · simp only [List.mem_cons, forall_eq_or_imp, hs']
    refine ⟨⟨m, set_maps_same _ _ _, hrep⟩, fun x hx => ?_⟩
    rw [set_maps_ne _ _ (hne x hx)]
    exact hS.rep x hx
  · intro t m' hm'
    rw [hs'] at hm'
    by_cases htt : t = P.τ
    · exact ⟨_, List.mem_cons_self, htt.symm⟩
    · rw [set_maps_ne _ _ htt] at hm'
      obtain ⟨x, hx, rfl⟩ := hS.only t m' hm'
      exact ⟨x, List.mem_cons_of_mem _ hx, rfl⟩

theorem new_step (hi : Inv cfg n w s) (hS : Show cfg n w s L LK) {P : Par K} (hcfg : P = cfg P.τ) (hno : s.maps P.τ = none) :
    (obs w (reply (fun _ => .unit) (newBPlusTree P.τ P.max P.ca) w)).quiet ∧ (obs w (reply (fun _ => .unit) (newBPlusTree P.τ P.max P.ca) w)).out = .ok .unit ∧
      Inv cfg (n + 1) (reply (fun _ => .unit) (newBPlusTree P.τ P.max P.ca) w).2 (s.set P.τ (some ⟨[], 0, 0, none, 0⟩)) := by
  obtain ⟨r, w', e1, q, ht, hh⟩ := newBPlusTree_run (P := P) hS.scene.heap
  have hq := (Still.newBPlusTree P.τ P.max P.ca).run w
  rw [e1] at hq
  rw [reply_ok e1]
  refine ⟨hq.obs, rfl, ?_⟩
  have hS' : Show cfg (n + 1) w' (s.set P.τ (some ⟨[], 0, 0, none, 0⟩)) (⟨P, 0, .leaf r none [], 0, 0⟩ :: L) LK := by
    refine hS.open hcfg hno hh ht ?_ ?_ ?_ ?_ ?_ (by omega) ?_ rfl hS.lost
    · intro σ hσ
      rw [q.others σ hσ, setT_trees, upd_ne _ _ hσ]
    · exact Clean_leaf _ _ _
    · simp
    · rw [erase_leaf, rootOcc_leaf]; simp
    · exact ⟨List.Pairwise.nil, fun x hx => absurd hx List.not_mem_nil⟩
    · exact ⟨rfl, by simp [Ent.pages, bun_leaf, leafB, cellB, lruB], rfl, rfl, rfl⟩
  have hholds : ∀ x, s.holds x → (s.set P.τ (some ⟨[], 0, 0, none, 0⟩)).holds x := by
    rintro x (h | ⟨t, m, h1, h2⟩)
    · exact .inl h
    · refine .inr ⟨t, m, ?_, h2⟩
      rw [set_maps_ne _ _ (by rintro rfl; rw [hno] at h1; cases h1)]
      exact h1
  have hown : Api.St.Owned (s.set P.τ (some ⟨[], 0, 0, none, 0⟩)) := by
    refine ⟨fun r sn x t1 m1 hr hl hm1 hx => ?_, hi.owned.same⟩
    by_cases ht : t1 = P.τ
    · subst ht
      rw [set_maps_same, Option.some.injEq] at hm1
      subst hm1
      rcases hx with hx | hx <;> exact absurd hx (Multiset.notMem_zero _)
    · rw [set_maps_ne _ _ ht] at hm1
      exact hi.owned.mine r sn x t1 m1 hr hl hm1 hx
  refine hi.next hS' hown ?_ ?_
  · intro r sn hr
    obtain ⟨H0, d0, -, -, k3⟩ := hi.snaps r sn hr
    exact .inl ⟨hr, fun x hx => ⟨by rw [hq.disk], hholds x (k3 x hx)⟩⟩
  · rw [hq.disk]
    exact fun hex x hx => hholds x (hi.exact hex x hx)

theorem old_step (hi : Inv cfg n w s) (hS : Show cfg n w s L LK) {P : Par K} (hcfg : P = cfg P.τ) (hno : s.maps P.τ = none) {r : Ref} {sn : Api.Snap K V}
    (hsn : s.snaps r = some sn) (hmap : sn.map = P.τ) (hlost : ∀ x ∈ sn.locs, s.lost x) :
    ∃ s', (obs w (reply (fun _ => .unit) (oldBPlusTree P.cmp P.τ r P.ca) w)).quiet ∧
      (((obs w (reply (fun _ => .unit) (oldBPlusTree P.cmp P.τ r P.ca) w)).out = .ok .unit ∧
        s' = { s.set P.τ (some ⟨sn.items, sn.locs, 0, some r, 0⟩) with lost := fun x => s.lost x ∧ x ∉ sn.locs }) ∨
       ∃ e, (obs w (reply (fun _ => .unit) (oldBPlusTree P.cmp P.τ r P.ca) w)).out = .err e ∧ w.env.faults.reading e ∧ s' = s) ∧
      Inv cfg (n + 1) (reply (fun _ => .unit) (oldBPlusTree P.cmp P.τ r P.ca) w).2 s' := by
  obtain ⟨H, d, hH, hd, -⟩ := hi.snaps r sn hsn
  rw [hmap, ← hcfg] at hd
  have hnd := hS.scene.heap.nodup
  have hdk := hS.scene.heap.disk
  simp only [Prod.snd_add, Prod.fst_add, pagesB_3, Multiset.map_add] at hnd hdk
  have hle : d.pages P true ≤ LK := by
    refine (Multiset.le_iff_subset (Multiset.Nodup.of_map Prod.fst (by rw [hd.locs]; exact hd.nodup))).2 fun p hp => ?_
    have h1 : p.1 ∈ LK.map Prod.fst := (hS.lost _).2 (hlost _ (by rw [← hd.locs]; exact Multiset.mem_map_of_mem _ hp))
    obtain ⟨q, hq, he⟩ := Multiset.mem_map.1 h1
    have h2 := (hdk q (Multiset.mem_add.2 (.inr hq))).1
    have h3 := (hd.disk p hp).1
    rw [he, h3, Option.some.injEq] at h2
    have : p = q := Prod.ext he.symm h2
    rw [this]; exact hq
  obtain ⟨LK', rfl⟩ := Multiset.le_iff_exists_add.1 hle
  have hheap : Heap w (pagesB (d.pages P true) + (whole L + pagesB LK')) := hS.scene.heap.eq (by rw [pagesB_add]; abel)
  have hq := (Still.oldBPlusTree P.cmp P.τ r P.ca).run w
  have hrun := oldBPlusTree_run hheap hd.ord
  rw [hd.ref] at hrun
  rcases hrun.cases with ⟨_, w', e1, g, h1, h2, h3, h4, h5⟩ | ⟨x, w', e1, h1, h3, h5⟩
  · rw [e1] at hq
    rw [reply_ok e1]
    refine ⟨_, hq.obs, .inl ⟨rfl, rfl⟩, ?_⟩
    have hpg : (Ent.pages ⟨P, H, g, 0, 0⟩) = d.pages P true := by
      show (bun P ⟨none, true⟩ g).2.2.1 = _
      rw [h1.pages, bun_unl]
      simp [cellB, offB, pagesB]
    have her : g.erase = d.erase := by rw [h1.erase]; simp
    have hloc : (d.pages P true).map Prod.fst = sn.locs := hd.locs
    have hS' : Show cfg (n + 1) w' { s.set P.τ (some ⟨sn.items, sn.locs, 0, some r, 0⟩) with lost := fun x => s.lost x ∧ x ∉ sn.locs } (⟨P, H, g, 0, 0⟩ :: L) LK' := by
      refine hS.open hcfg hno h5 h4 h3.others (h1.clean (by simp)) (by rw [h1.odds]; simp) (by rw [her]; exact hd.occ) (by rw [her]; exact hd.ord) (by omega) ?_ rfl ?_
      · refine ⟨?_, ?_, rfl, ?_, rfl⟩
        · show sn.items = g.erase.flat
          rw [her, hd.items]
        · rw [hpg]; exact hloc.symm
        · show some r = g.st
          rw [h1.st]
          show some r = some d.ref
          rw [hd.ref]
      · intro x
        rw [Multiset.map_add, hloc] at hnd
        rw [Multiset.nodup_add, Multiset.nodup_add] at hnd
        have := hS.lost x
        rw [Multiset.map_add, Multiset.mem_add, hloc] at this
        show _ ↔ s.lost x ∧ x ∉ sn.locs
        rw [← this]
        exact ⟨fun h => ⟨.inr h, fun h' => Multiset.disjoint_left.1 hnd.2.1.2.2 h' h⟩, fun h => h.1.resolve_left h.2⟩
    have hholds : ∀ x, s.holds x → Api.St.holds { s.set P.τ (some ⟨sn.items, sn.locs, 0, some r, 0⟩) with lost := fun x => s.lost x ∧ x ∉ sn.locs } x := by
      intro x hx
      by_cases hxl : x ∈ sn.locs
      · exact .inr ⟨P.τ, ⟨sn.items, sn.locs, 0, some r, 0⟩, set_maps_same _ _ _, .inl hxl⟩
      · rcases hx with h | ⟨t, m, h1, h2⟩
        · exact .inl ⟨h, hxl⟩
        · refine .inr ⟨t, m, ?_, h2⟩
          show (s.set P.τ (some ⟨sn.items, sn.locs, 0, some r, 0⟩)).maps t = some m
          rw [set_maps_ne _ _ (by rintro rfl; rw [hno] at h1; cases h1)]
          exact h1
    have hown : Api.St.Owned ({ s.set P.τ (some ⟨sn.items, sn.locs, 0, some r, 0⟩) with lost := fun x => s.lost x ∧ x ∉ sn.locs } : Api.St K V) := by
      refine ⟨fun r1 sn1 x t1 m1 hr1 hl hm1 hx => ?_, hi.owned.same⟩
      have hm1 : (s.set P.τ (some ⟨sn.items, sn.locs, 0, some r, 0⟩)).maps t1 = some m1 := hm1
      have hr1 : s.snaps r1 = some sn1 := hr1
      by_cases ht : t1 = P.τ
      · subst ht
        rw [set_maps_same, Option.some.injEq] at hm1
        subst hm1
        rcases hx with hx | hx
        · rw [← hmap]
          exact hi.owned.same r1 sn1 r sn x hr1 hsn hl hx
        · exact absurd hx (Multiset.notMem_zero _)
      · rw [set_maps_ne _ _ ht] at hm1
        exact hi.owned.mine r1 sn1 x t1 m1 hr1 hl hm1 hx
    refine hi.next hS' hown ?_ ?_
    · intro r sn hr
      obtain ⟨H0, d0, -, -, k3⟩ := hi.snaps r sn hr
      exact .inl ⟨hr, fun x hx => ⟨by rw [hq.disk], hholds x (k3 x hx)⟩⟩
    · rw [hq.disk]
      exact fun hex x hx => hholds x (hi.exact hex x hx)
  · rw [e1] at hq
    rw [reply_err e1]
    refine ⟨s, hq.obs, .inr ⟨x, rfl, Faulty.reading h1, rfl⟩, ?_⟩
    have hne : ∀ x ∈ L, x.P.τ ≠ P.τ := by
      intro x hx he
      obtain ⟨m', k1, -⟩ := hS.rep x hx
      rw [he, hno] at k1
      cases k1
    have hS' : Show cfg (n + 1) w' s L (d.pages P true + LK') :=
      ⟨⟨h5.eq (by rw [pagesB_add]; abel), hS.scene.nodup, fun x hx => (hS.scene.ok x hx).congr (h3.others _ (hne x hx))⟩, hS.cfg,
       fun x hx => (hS.high x hx).trans (by omega), hS.rep, hS.only, hS.lost⟩
    refine hi.next hS' hi.owned ?_ ?_
    · intro r sn hr
      obtain ⟨H0, d0, -, -, k3⟩ := hi.snaps r sn hr
      exact .inl ⟨hr, fun x hx => ⟨by rw [hq.disk], k3 x hx⟩⟩
    · rw [hq.disk]
      exact hi.exact

/-! ### The cache, restarts, and what happens after a failure -/

theorem evict_step (hi : Inv cfg n w s) (hS : Show cfg n w s L LK) {fuel : Nat} (hf : ∀ t, (cfg t).max + n + 2 < fuel) (x : Id) :
    (obs w (reply (fun _ => .unit) (drainerEvict fuel x) w)).quiet ∧ (obs w (reply (fun _ => .unit) (drainerEvict fuel x) w)).out = .ok .unit ∧
      Inv cfg (n + 1) (reply (fun _ => .unit) (drainerEvict fuel x) w).2 s := by
  by_cases ht : (w.lru.el x).tag = .cleanLRU
  · have hx : (x, some false) ∈ (whole L + pagesB LK).2.1 := mem_live.1 (hS.scene.heap.lru.is.mem.2 ht)
    simp only [Prod.snd_add, Prod.fst_add, pagesB_2, add_zero] at hx
    obtain ⟨b, hb, hxb⟩ := mem_sumB.1 hx
    obtain ⟨e, he, rfl⟩ := List.mem_map.1 hb
    obtain ⟨m, hm, hrep⟩ := hS.rep e he
    have hxe : (x, some false) ∈ (bun e.P ⟨none, true⟩ e.g).2.1 := by simpa [Ent.F, slotB] using hxb
    obtain ⟨a, b', rfl⟩ := List.append_of_mem he
    have hH := hS.high e he
    have := hf e.P.τ
    obtain ⟨w', e1, -, g', h1, -, -, h2⟩ := drainerEvict_run hS.scene.focus (by omega : e.H < fuel) hxe
    rw [reply_ok e1]
    exact ⟨h2.I.evo.obs, rfl, hi.same hS hm hrep h1 h2⟩
  · have e1 : drainerEvict fuel x w = (.ok (), w) := by simp [drainerEvict, ht]
    rw [reply_ok e1]
    exact ⟨(Quiet.refl 0 w).obs, rfl, hi.mono (by omega)⟩

theorem limits_step (hi : Inv cfg n w s) (hS : Show cfg n w s L LK) (lo hi' : Nat) :
    (obs w (reply (fun _ => .unit) (updateLimits lo hi') w)).quiet ∧ (obs w (reply (fun _ => .unit) (updateLimits lo hi') w)).out = .ok .unit ∧
      Inv cfg (n + 1) (reply (fun _ => .unit) (updateLimits lo hi') w).2 s := by
  refine ⟨⟨by simp [obs, reply, updateLimits], by simp [obs, reply, updateLimits], by simp [obs, reply, updateLimits]⟩, rfl, ?_⟩
  have hS' : Show cfg (n + 1) (reply (fun _ => Api.Reply.unit) (updateLimits lo hi') w).2 s L LK :=
    ⟨⟨hS.scene.heap.congr (fun _ _ => rfl) rfl rfl rfl rfl, hS.scene.nodup, fun x hx => (hS.scene.ok x hx).congr rfl⟩, hS.cfg,
     fun x hx => (hS.high x hx).trans (by omega), hS.rep, hS.only, hS.lost⟩
  refine hi.next hS' hi.owned ?_ ?_
  · intro r sn hr
    obtain ⟨H0, d0, -, -, k3⟩ := hi.snaps r sn hr
    exact .inl ⟨hr, fun x hx => ⟨rfl, k3 x hx⟩⟩
  · exact hi.exact

theorem restart_step (hi : Inv cfg n w s) :
    Inv cfg (n + 1) (boot w) { s with maps := fun _ => none, lost := s.holds, sound := true } := by
  obtain ⟨A, h1, h2, h3⟩ := hi.filed
  have hS : Show cfg (n + 1) (boot w) { s with maps := fun _ => none, lost := s.holds, sound := true } [] A := by
    refine ⟨⟨?_, by simp, by simp⟩, by simp, by simp, by simp, by simp, h3⟩
    refine Heap.eq (R := pagesB A) ⟨⟨by simp, by simp [idsOf], by simp [idsOf], by simp [kidsOf], by simp [kidsOf]⟩, ⟨LruIs.empty, by simp, by simp⟩, h1, h2⟩ (by simp)
  refine hi.next hS ⟨fun _ _ _ _ _ _ _ h => (by cases h), hi.owned.same⟩ ?_ ?_
  · intro r sn hr
    obtain ⟨H0, d0, -, -, k3⟩ := hi.snaps r sn hr
    exact .inl ⟨hr, fun x hx => ⟨rfl, .inl (k3 x hx)⟩⟩
  · exact fun hex x hx => .inl (hi.exact hex x hx)

theorem Inv.adds (hi : Inv cfg n w s) (hs : s.sound = false) (hq : Adds w w') : Inv cfg (n + 1) w' { s with exact := false } := by
  refine ⟨?_, hi.apart, ?_, ⟨hi.owned.mine, hi.owned.same⟩, (fun h => by cases h), fun h => ?_⟩
  · obtain ⟨A, h1, h2, h3⟩ := hi.filed
    exact ⟨A, h1, fun p hp => ⟨hq.disk _ _ (h2 p hp).1, (h2 p hp).2⟩, h3⟩
  · intro r sn hr
    obtain ⟨H, d, h3, h4, h5⟩ := hi.snaps r sn hr
    exact ⟨H, d, by omega, ⟨h4.ref, h4.items, h4.ord, h4.occ, h4.locs, h4.nodup, fun p hp => ⟨hq.disk _ _ (h4.disk p hp).1, (h4.disk p hp).2⟩⟩, h5⟩
  · simp only at h
    rw [hs] at h
    cases h

theorem Safe.reply {α : Type} {f : α → Api.Reply K V} {m : M K V α} (h : Safe m) (w : World K V) : Adds w (BT.reply f m w).2 := by
  rw [reply_world]
  exact h.run w

/-- Every call other than Prune and Discard leaves alone all that is stored, in any state. -/
theorem exec_adds (size : DiskNode K V → Nat) (fuel : Nat) (c : Api.Call K V) (h1 : ∀ t, c ≠ .prune t) (h2 : ∀ t, c ≠ .discard t) :
    Adds w (exec size cfg fuel c w).2 := by
  cases c with
  | op t o => exact (Still.step _ _ _ _).safe.reply w
  | flush t p => exact (Safe.flush size t fuel p).reply w
  | purge t full => exact (Still.purge t fuel full).safe.reply w
  | touch t => exact (Still.touch _ t fuel).safe.reply w
  | touchItem t i => exact (Still.touchItem _ t fuel i).safe.reply w
  | prune t => exact absurd rfl (h1 t)
  | discard t => exact absurd rfl (h2 t)
  | layout t => exact (Still.fetchLayoutReport _ t fuel).safe.reply w
  | dimensions t => exact (Still.fetchDimensionsReport _ t fuel).safe.reply w
  | location t => exact (Still.fetchLocation t).safe.reply w
  | dump t cb => exact (Still.dump _ cb t fuel).safe.reply w
  | new t => exact (Still.newBPlusTree t _ _).safe.reply w
  | old t r => exact (Still.oldBPlusTree _ t r _).safe.reply w
  | evict x => exact (Still.drainerEvict fuel x).safe.reply w
  | limits lo hi => exact (Still.updateLimits lo hi).safe.reply w
  | restart => exact ⟨fun _ _ h => h, rfl, rfl, rfl, rfl, rfl⟩

/-! ### Every call -/

/-- A call on an open map. -/
theorem map_step (size : DiskNode K V → Nat) (hi : Inv cfg n w s) (hs : s.sound = true) {fuel : Nat} (hf : ∀ t, (cfg t).max + n + 2 < fuel) {t : TreeId} {m : Api.Map K V}
    (hm : s.maps t = some m) {c : Api.Call K V}
    (hrun : ∀ {a e b LK}, Show cfg n w s (a ++ e :: b) LK → t = e.P.τ → s.maps e.P.τ = some m → Rep e m → e.P = cfg e.P.τ → e.P.max + n + 2 < fuel →
      ∃ s', Api.mapStep e.P.cfg w.env.faults s e.P.τ m (obs w (exec size cfg fuel c w)) s' c ∧ Inv cfg (n + 1) (exec size cfg fuel c w).2 s') :
    ∃ s', (∃ m, s.maps t = some m ∧ Api.mapStep (cfg t).cfg w.env.faults s t m (obs w (exec size cfg fuel c w)) s' c) ∧ Inv cfg (n + 1) (exec size cfg fuel c w).2 s' := by
  obtain ⟨L, LK, hS⟩ := hi.shows hs
  obtain ⟨a, e, b, rfl, rfl, h1, h2, h3⟩ := hS.split hm
  obtain ⟨s', k1, k2⟩ := hrun hS rfl hm h1 h2 (by rw [h2]; exact hf _)
  exact ⟨s', ⟨m, hm, by rw [← h2]; exact k1⟩, k2⟩

/-- Every call does what the specification says. -/
theorem exec_step (size : DiskNode K V → Nat) (hcfg : ∀ t, (cfg t).τ = t) (hi : Inv cfg n w s) {fuel : Nat} (hf : ∀ t, (cfg t).max + n + 2 < fuel) (c : Api.Call K V)
    (hp : Api.Pre (fun t => (cfg t).cfg) w.env.faults s c) :
    ∃ s', Api.Step (fun t => (cfg t).cfg) w.env.faults s c (obs w (exec size cfg fuel c w)) s' ∧ Inv cfg (n + 1) (exec size cfg fuel c w).2 s' := by
  by_cases hr : c = .restart
  · subst hr
    have h := restart_step hi
    exact ⟨_, ⟨h.tally, ⟨by simp [obs, exec, boot], by simp [obs, exec, boot], by simp [obs, exec, boot]⟩, rfl, rfl⟩, h⟩
  cases hs : s.sound with
  | false =>
    have hn : (∀ t, c ≠ .prune t) ∧ ∀ t, c ≠ .discard t := by
      constructor <;> rintro t rfl <;> simp [Api.Pre, hs] at hp
    have hq := exec_adds (w := w) (cfg := cfg) size fuel c hn.1 hn.2
    have h := hi.adds hs hq
    refine ⟨_, ⟨h.tally, ?_⟩, h⟩
    have hg : (obs w (exec size cfg fuel c w)).discards = 0 ∧ (obs w (exec size cfg fuel c w)).gone = [] := ⟨by simp [obs, hq.discards], by simp [obs, hq.log]⟩
    cases c <;> first | exact absurd rfl hr | (simp only [hs]; first | exact ⟨hg.1, hg.2, rfl⟩ | exact ⟨hg.1, hg.2, trivial⟩)
  | true =>
    suffices ∃ s', (match c with
        | .op t _ | .flush t _ | .purge t _ | .touch t | .touchItem t _ | .prune t | .discard t | .layout t | .dimensions t | .location t | .dump t _ =>
            ∃ m, s.maps t = some m ∧ Api.mapStep (cfg t).cfg w.env.faults s t m (obs w (exec size cfg fuel c w)) s' c
        | .new t => (obs w (exec size cfg fuel c w)).quiet ∧ (obs w (exec size cfg fuel c w)).out = .ok .unit ∧ s' = s.set t (some ⟨[], 0, 0, none, 0⟩)
        | .old t r => (obs w (exec size cfg fuel c w)).quiet ∧ ∃ sn, s.snaps r = some sn ∧
            (((obs w (exec size cfg fuel c w)).out = .ok .unit ∧ s' = { s.set t (some ⟨sn.items, sn.locs, 0, some r, 0⟩) with lost := fun x => s.lost x ∧ x ∉ sn.locs }) ∨
             ∃ e, (obs w (exec size cfg fuel c w)).out = .err e ∧ w.env.faults.reading e ∧ s' = s)
        | .evict _ | .limits _ _ => (obs w (exec size cfg fuel c w)).quiet ∧ (obs w (exec size cfg fuel c w)).out = .ok .unit ∧ s' = s
        | .restart => False) ∧ Inv cfg (n + 1) (exec size cfg fuel c w).2 s' by
      obtain ⟨s', h1, h2⟩ := this
      refine ⟨s', ⟨h2.tally, ?_⟩, h2⟩
      cases c <;> first | exact absurd rfl hr | (simp only [hs, if_true]; exact h1)
    cases c with
    | op t o =>
      have hm : ∃ m, s.maps t = some m ∧ ∀ k x, o = .put k x → (cfg t).Valid k ∨ m.items ≠ [] := by
        cases o <;> simp only [Api.Pre, hs, if_true] at hp
        case put k x =>
          obtain ⟨m, h1, h2⟩ := hp
          refine ⟨m, h1, ?_⟩
          rintro _ _ ⟨⟩
          exact h2
        all_goals exact ⟨_, hp.choose_spec, by rintro _ _ ⟨⟩⟩
      obtain ⟨m, hm, hk⟩ := hm
      refine map_step size hi hs hf hm ?_
      rintro a e b LK hS rfl hm hrep hP hf
      simp only [exec]
      rw [← hP] at hk ⊢
      exact op_step hi hS hm hrep hf hk
    | flush t p =>
      simp only [Api.Pre, hs, if_true] at hp
      obtain ⟨m, hm⟩ := hp
      refine map_step size hi hs hf hm ?_
      rintro a e b LK hS rfl hm hrep hP hf
      exact flush_step hi hS hm hrep size p hf
    | purge t full =>
      simp only [Api.Pre, hs, if_true] at hp
      obtain ⟨m, hm⟩ := hp
      refine map_step size hi hs hf hm ?_
      rintro a e b LK hS rfl hm hrep hP hf
      exact purge_step hi hS hm hrep full hf
    | touch t =>
      simp only [Api.Pre, hs, if_true] at hp
      obtain ⟨m, hm⟩ := hp
      refine map_step size hi hs hf hm ?_
      rintro a e b LK hS rfl hm hrep hP hf
      simp only [exec]
      rw [← hP]
      exact touch_step hi hS hm hrep hf
    | touchItem t i =>
      simp only [Api.Pre, hs, if_true] at hp
      obtain ⟨m, hm⟩ := hp
      refine map_step size hi hs hf hm ?_
      rintro a e b LK hS rfl hm hrep hP hf
      simp only [exec]
      rw [← hP]
      exact touchItem_step hi hS hm hrep i hf
    | prune t =>
      simp only [Api.Pre, hs, if_true] at hp
      obtain ⟨m, hm, hT⟩ := hp
      refine map_step size hi hs hf hm ?_
      rintro a e b LK hS rfl hm hrep hP hf
      exact prune_step hi hS hm hrep hT
    | discard t =>
      simp only [Api.Pre, hs, if_true] at hp
      obtain ⟨⟨m, hm, hT⟩, h1, h2, h3⟩ := hp
      refine map_step size hi hs hf hm ?_
      rintro a e b LK hS rfl hm hrep hP hf
      simp only [exec]
      rw [← hP]
      exact discard_step hi hS hm hrep hT hf h1 h2 h3
    | layout t =>
      simp only [Api.Pre, hs, if_true] at hp
      obtain ⟨m, hm⟩ := hp
      refine map_step size hi hs hf hm ?_
      rintro a e b LK hS rfl hm hrep hP hf
      simp only [exec]
      rw [← hP]
      exact layout_step hi hS hm hrep hf
    | dump t cb =>
      simp only [Api.Pre, hs, if_true] at hp
      obtain ⟨m, hm⟩ := hp
      refine map_step size hi hs hf hm ?_
      rintro a e b LK hS rfl hm hrep hP hf
      simp only [exec]
      rw [← hP]
      exact dump_step hi hS hm hrep cb hf
    | dimensions t =>
      simp only [Api.Pre, hs, if_true] at hp
      obtain ⟨m, hm⟩ := hp
      refine map_step size hi hs hf hm ?_
      rintro a e b LK hS rfl hm hrep hP hf
      simp only [exec]
      rw [← hP]
      exact dimensions_step hi hS hm hrep hf
    | location t =>
      simp only [Api.Pre, hs, if_true] at hp
      obtain ⟨m, hm⟩ := hp
      refine map_step size hi hs hf hm ?_
      rintro a e b LK hS rfl hm hrep hP hf
      exact location_step hi hS hm hrep
    | new t =>
      simp only [Api.Pre, hs, if_true] at hp
      obtain ⟨L, LK, hS⟩ := hi.shows hs
      obtain ⟨P, hP⟩ : ∃ P, P = cfg t := ⟨_, rfl⟩
      have hτ : P.τ = t := by rw [hP, hcfg]
      subst hτ
      obtain ⟨h1, h2, h3⟩ := new_step hi hS hP hp
      simp only [exec]
      rw [← hP]
      exact ⟨_, ⟨h1, h2, rfl⟩, h3⟩
    | old t r =>
      simp only [Api.Pre, hs, if_true] at hp
      obtain ⟨hno, sn, hsn, hmap⟩ := hp
      have hlost : ∀ x ∈ sn.locs, s.lost x := by
        intro x hx
        obtain ⟨H0, d0, -, -, k3⟩ := hi.snaps r sn hsn
        rcases k3 x hx with h | ⟨t', m', k4, k5⟩
        · exact h
        · have := hi.owned.mine r sn x t' m' hsn hx k4 k5
          rw [hmap] at this
          rw [← this, hno] at k4
          cases k4
      obtain ⟨L, LK, hS⟩ := hi.shows hs
      obtain ⟨P, hP⟩ : ∃ P, P = cfg t := ⟨_, rfl⟩
      have hτ : P.τ = t := by rw [hP, hcfg]
      subst hτ
      obtain ⟨s', h1, h2, h3⟩ := old_step hi hS hP hno hsn hmap hlost
      simp only [exec]
      rw [← hP]
      exact ⟨s', ⟨h1, sn, hsn, h2⟩, h3⟩
    | evict x =>
      obtain ⟨L, LK, hS⟩ := hi.shows hs
      obtain ⟨h1, h2, h3⟩ := evict_step hi hS hf x
      exact ⟨s, ⟨h1, h2, rfl⟩, h3⟩
    | limits lo hi' =>
      obtain ⟨L, LK, hS⟩ := hi.shows hs
      obtain ⟨h1, h2, h3⟩ := limits_step hi hS lo hi'
      exact ⟨s, ⟨h1, h2, rfl⟩, h3⟩
    | restart => exact absurd rfl hr

/-! ### Histories -/

/-- No process has run, nothing is stored. -/
def start : World K V :=
  { node := fun i => freshStruct i.1 0 false false none none, ps := fun _ => ⟨0, 0, none, none, none⟩, lru := .empty
    ctl := ⟨0, 0, false, 0, 0, 0⟩, trees := fun _ => ⟨0, 0, none, [], false⟩, next := 0, disk := fun _ => none
    env := ⟨fun _ => false, fun _ => false, fun _ => false, fun _ => none, fun _ => false, fun _ => id, 0, 0, 0, 0, 0⟩, log := [] }

/-- From now on the callbacks behave like this. -/
def World.using (w : World K V) (v : Env) : World K V := { w with env := v }

/-- Calls, one after the other, with the behaviour of the callbacks during each, and what is seen of them. -/
def trace (size : DiskNode K V → Nat) (cfg : TreeId → Par K) (fuel : Nat) : World K V → List (Api.Call K V × Env) → List (Api.Call K V × Api.Faults × Api.Obs K V)
  | _, [] => []
  | w, (c, v) :: cs =>
      (c, v.faults, obs (w.using v) (exec size cfg fuel c (w.using v))) :: trace size cfg fuel (exec size cfg fuel c (w.using v)).2 cs

theorem Inv.start : Inv cfg n (start : World K V) Api.init := by
  have hh : ∀ r, ¬(Api.init : Api.St K V).holds r := by
    rintro r (h | ⟨t, m, h, -⟩)
    · exact h
    · cases h
  refine ⟨⟨0, by simp, by simp, fun r => ?_⟩, fun t m h => (by cases h), fun r sn h => (by cases h), ⟨fun _ _ _ _ _ h => (by cases h), fun _ _ _ _ _ h => (by cases h)⟩, fun _ r h => absurd rfl h, fun _ => ⟨[], 0, ⟨?_, by simp, by simp⟩, by simp, by simp, by simp, fun t m h => (by cases h), fun r => ?_⟩⟩
  · simpa using hh r
  · exact Heap.eq (R := 0) ⟨⟨by simp, by simp [idsOf], by simp [idsOf], by simp [kidsOf], by simp [kidsOf]⟩, ⟨LruIs.empty, by simp, by simp⟩, by simp, by simp⟩ (by simp [pagesB]; rfl)
  · simp [Api.init]

theorem Inv.using (hi : Inv cfg n w s) (v : Env) : Inv cfg n (w.using v) s :=
  ⟨hi.filed, hi.apart, fun r sn h => by
    obtain ⟨H, d, h3, h4, h5⟩ := hi.snaps r sn h
    exact ⟨H, d, h3, ⟨h4.ref, h4.items, h4.ord, h4.occ, h4.locs, h4.nodup, h4.disk⟩, h5⟩, hi.owned, hi.exact, fun h => by
    obtain ⟨L, LK, hS⟩ := hi.shows h
    exact ⟨L, LK, ⟨hS.scene.heap.congr (fun _ _ => rfl) rfl rfl rfl rfl, hS.scene.nodup, fun x hx => (hS.scene.ok x hx).congr rfl⟩, hS.cfg, hS.high, hS.rep, hS.only, hS.lost⟩⟩

theorem Inv.meets (size : DiskNode K V → Nat) (hcfg : ∀ t, (cfg t).τ = t) {fuel : Nat} : ∀ {n : Nat} {w : World K V} {s : Api.St K V} (cs : List (Api.Call K V × Env)),
    Inv cfg n w s → (∀ t, (cfg t).max + n + cs.length + 2 < fuel) → Api.Meets (fun t => (cfg t).cfg) s (trace size cfg fuel w cs)
  | _, _, _, [], _, _ => trivial
  | n, w, s, (c, v) :: cs, hi, hf => by
      intro hp
      obtain ⟨s', h1, h2⟩ := exec_step (n := n) (fuel := fuel) size hcfg (hi.using v) (fun t => by have := hf t; rw [List.length_cons] at this; omega) c hp
      exact ⟨s', h1, Inv.meets (n := n + 1) size hcfg cs h2 (fun t => by have := hf t; rw [List.length_cons] at this; omega)⟩

/-- Any calls, in any order, on any number of maps, with any behaviour of the callbacks: what is seen is what the specification allows. -/
theorem meets (size : DiskNode K V → Nat) (cfg : TreeId → Par K) (hcfg : ∀ t, (cfg t).τ = t) (cs : List (Api.Call K V × Env)) {fuel : Nat}
    (hf : ∀ t, (cfg t).max + cs.length + 2 < fuel) : Api.Meets (fun t => (cfg t).cfg) Api.init (trace size cfg fuel start cs) :=
  Inv.start.meets size hcfg cs (n := 0) (fun t => by have := hf t; omega)

end

end SM.BT

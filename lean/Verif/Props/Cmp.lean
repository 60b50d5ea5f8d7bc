import Verif.Cmp

/-! Properties C11-C14: the compare functions. -/

namespace SM.Props

open Cmp Cmp.DynKey

/-- The dynamic types. -/
def IsInt (k : DynKey) : Prop := ∃ a, k = .int a
def IsUint16 (k : DynKey) : Prop := ∃ a, k = .uint16 a
def IsUint32 (k : DynKey) : Prop := ∃ a, k = .uint32 a
def IsUint64 (k : DynKey) : Prop := ∃ a, k = .uint64 a
def IsString (k : DynKey) : Prop := ∃ a, k = .str a
def IsBytes (k : DynKey) : Prop := ∃ a, k = .bytes a
def IsTime (k : DynKey) : Prop := ∃ a, k = .time a

/-- `c` is a legal three-way result for a comparison that should give `lt`, `eq`, `gt`. -/
def Sign (c : Int) (lt eq gt : Prop) : Prop := (c < 0 ↔ lt) ∧ (c = 0 ↔ eq) ∧ (0 < c ↔ gt)

/-! C14 -/

theorem C14_compareInt_rejects (a b : DynKey) :
    (∃ e, compareInt a b = .error e) ↔ ¬ (IsInt a ∧ IsInt b) := by
  cases a <;> cases b <;> simp [compareInt, IsInt]
theorem C14_compareUint16_rejects (a b : DynKey) :
    (∃ e, compareUint16 a b = .error e) ↔ ¬ (IsUint16 a ∧ IsUint16 b) := by
  cases a <;> cases b <;> simp [compareUint16, IsUint16]
theorem C14_compareUint32_rejects (a b : DynKey) :
    (∃ e, compareUint32 a b = .error e) ↔ ¬ (IsUint32 a ∧ IsUint32 b) := by
  cases a <;> cases b <;> simp [compareUint32, IsUint32]
theorem C14_compareUint64_rejects (a b : DynKey) :
    (∃ e, compareUint64 a b = .error e) ↔ ¬ (IsUint64 a ∧ IsUint64 b) := by
  cases a <;> cases b <;> simp [compareUint64, IsUint64]
theorem C14_compareString_rejects (a b : DynKey) :
    (∃ e, compareString a b = .error e) ↔ ¬ (IsString a ∧ IsString b) := by
  cases a <;> cases b <;> simp [compareString, IsString]
theorem C14_compareByteSlice_rejects (a b : DynKey) :
    (∃ e, compareByteSlice a b = .error e) ↔ ¬ (IsBytes a ∧ IsBytes b) := by
  cases a <;> cases b <;> simp [compareByteSlice, IsBytes]
theorem C14_compareTime_rejects (a b : DynKey) :
    (∃ e, compareTime a b = .error e) ↔ ¬ (IsTime a ∧ IsTime b) := by
  cases a <;> cases b <;> simp [compareTime, IsTime]

/-! C11: the sign is the order of the operands -/

theorem C11_compareUint16_order (a b : UInt16) :
    ∃ c, compareUint16 (.uint16 a) (.uint16 b) = .ok c ∧ Sign c (a < b) (a = b) (b < a) := by
  refine ⟨_, rfl, ?_⟩
  unfold Sign
  have e1 : a < b ↔ a.toNat < b.toNat := UInt16.lt_iff_toNat_lt
  have e2 : b < a ↔ b.toNat < a.toNat := UInt16.lt_iff_toNat_lt
  have e3 : a = b ↔ a.toNat = b.toNat := UInt16.toNat_inj.symm
  split
  · rename_i h; rw [e1] at h; rw [e1, e2, e3]; omega
  · rename_i h
    rw [e1] at h
    split
    · rename_i h'; rw [beq_iff_eq, e3] at h'; rw [e1, e2, e3]; omega
    · rename_i h'; rw [beq_iff_eq, e3] at h'; rw [e1, e2, e3]; omega

theorem C11_compareUint32_order (a b : UInt32) :
    ∃ c, compareUint32 (.uint32 a) (.uint32 b) = .ok c ∧ Sign c (a < b) (a = b) (b < a) := by
  refine ⟨_, rfl, ?_⟩
  unfold Sign
  have e1 : a < b ↔ a.toNat < b.toNat := UInt32.lt_iff_toNat_lt
  have e2 : b < a ↔ b.toNat < a.toNat := UInt32.lt_iff_toNat_lt
  have e3 : a = b ↔ a.toNat = b.toNat := UInt32.toNat_inj.symm
  split
  · rename_i h; rw [e1] at h; rw [e1, e2, e3]; omega
  · rename_i h
    rw [e1] at h
    split
    · rename_i h'; rw [beq_iff_eq, e3] at h'; rw [e1, e2, e3]; omega
    · rename_i h'; rw [beq_iff_eq, e3] at h'; rw [e1, e2, e3]; omega

theorem C11_compareUint64_order (a b : UInt64) :
    ∃ c, compareUint64 (.uint64 a) (.uint64 b) = .ok c ∧ Sign c (a < b) (a = b) (b < a) := by
  refine ⟨_, rfl, ?_⟩
  unfold Sign
  have e1 : a < b ↔ a.toNat < b.toNat := UInt64.lt_iff_toNat_lt
  have e2 : b < a ↔ b.toNat < a.toNat := UInt64.lt_iff_toNat_lt
  have e3 : a = b ↔ a.toNat = b.toNat := UInt64.toNat_inj.symm
  split
  · rename_i h; rw [e1] at h; rw [e1, e2, e3]; omega
  · rename_i h
    rw [e1] at h
    split
    · rename_i h'; rw [beq_iff_eq, e3] at h'; rw [e1, e2, e3]; omega
    · rename_i h'; rw [beq_iff_eq, e3] at h'; rw [e1, e2, e3]; omega

theorem sign_lex (a b : List UInt8) : Sign (lexCompare a b) (a < b) (a = b) (b < a) := by
  refine ⟨lexCompare_lt a b, lexCompare_eq a b, ?_⟩
  rw [← lexCompare_lt, lexCompare_swap a b]
  omega

/-- `<` on lists of bytes is Lean's lexicographic order (`List.Lex`). -/
theorem C11_compareString_order (a b : List UInt8) :
    ∃ c, compareString (.str a) (.str b) = .ok c ∧ Sign c (a < b) (a = b) (b < a) :=
  ⟨_, rfl, sign_lex a b⟩

theorem C11_compareByteSlice_order (a b : List UInt8) :
    ∃ c, compareByteSlice (.bytes a) (.bytes b) = .ok c ∧ Sign c (a < b) (a = b) (b < a) :=
  ⟨_, rfl, sign_lex a b⟩

/-- A compare function that follows a rank function into a linear order is lawful. -/
theorem lawful_of {α : Type} (cmp : Compare DynKey) (mk : α → DynKey)
    (lt : α → α → Prop) (hirr : ∀ a, ¬ lt a a) (htr : ∀ a b c, lt a b → lt b c → lt a c)
    (hinj : ∀ a b, mk a = mk b → a = b)
    (hsign : ∀ a b, ∃ c, cmp (mk a) (mk b) = .ok c ∧ Sign c (lt a b) (a = b) (lt b a))
    (hrej : ∀ a b, (∃ e, cmp a b = .error e) ↔ ¬ ((∃ x, a = mk x) ∧ (∃ x, b = mk x))) :
    Lawful cmp (fun k => ∃ a, k = mk a) where
  total a b ha hb := by
    obtain ⟨a, rfl⟩ := ha; obtain ⟨b, rfl⟩ := hb
    obtain ⟨c, hc, -⟩ := hsign a b; exact ⟨c, hc⟩
  refl a ha := by
    obtain ⟨a, rfl⟩ := ha
    obtain ⟨c, hc, hs⟩ := hsign a a
    rw [hc, hs.2.1.2 rfl]
  swap a b c d ha hb h1 h2 := by
    obtain ⟨a, rfl⟩ := ha; obtain ⟨b, rfl⟩ := hb
    obtain ⟨c', hc, hs⟩ := hsign a b
    obtain ⟨d', hd, hs'⟩ := hsign b a
    rw [h1] at hc; rw [h2] at hd
    cases hc; cases hd
    rw [hs.1, hs'.2.2]
  trans a b c x y z ha hb hc h1 h2 h3 hx hy := by
    obtain ⟨a, rfl⟩ := ha; obtain ⟨b, rfl⟩ := hb; obtain ⟨c, rfl⟩ := hc
    obtain ⟨x', e1, s1⟩ := hsign a b
    obtain ⟨y', e2, s2⟩ := hsign b c
    obtain ⟨z', e3, s3⟩ := hsign a c
    rw [h1] at e1; rw [h2] at e2; rw [h3] at e3
    cases e1; cases e2; cases e3
    have hlt : x < 0 ∨ x = 0 := by omega
    have hlt' : y < 0 ∨ y = 0 := by omega
    rcases hlt with h | h
    · rcases hlt' with h' | h'
      · have := s3.1.2 (htr _ _ _ (s1.1.1 h) (s2.1.1 h')); omega
      · have := s2.2.1.1 h'; subst this
        have := s3.1.2 (s1.1.1 h); omega
    · have := s1.2.1.1 h; subst this
      rcases hlt' with h' | h'
      · have := s3.1.2 (s2.1.1 h'); omega
      · have := s3.2.1.2 (s2.2.1.1 h'); omega
  rejects a b h := (hrej a b).2 h

theorem C11_compareUint16_lawful : Lawful compareUint16 IsUint16 :=
  lawful_of _ .uint16 (· < ·) UInt16.lt_irrefl (fun _ _ _ => UInt16.lt_trans) (by simp)
    C11_compareUint16_order C14_compareUint16_rejects
theorem C11_compareUint32_lawful : Lawful compareUint32 IsUint32 :=
  lawful_of _ .uint32 (· < ·) UInt32.lt_irrefl (fun _ _ _ => UInt32.lt_trans) (by simp)
    C11_compareUint32_order C14_compareUint32_rejects
theorem C11_compareUint64_lawful : Lawful compareUint64 IsUint64 :=
  lawful_of _ .uint64 (· < ·) UInt64.lt_irrefl (fun _ _ _ => UInt64.lt_trans) (by simp)
    C11_compareUint64_order C14_compareUint64_rejects
theorem C11_compareString_lawful : Lawful compareString IsString :=
  lawful_of _ .str (· < ·) List.lt_irrefl (fun _ _ _ => List.lt_trans) (by simp)
    C11_compareString_order C14_compareString_rejects
theorem C11_compareByteSlice_lawful : Lawful compareByteSlice IsBytes :=
  lawful_of _ .bytes (· < ·) List.lt_irrefl (fun _ _ _ => List.lt_trans) (by simp)
    C11_compareByteSlice_order C14_compareByteSlice_rejects

/-! C12 -/

/-- C12 is false: the difference wraps around, so the most negative int compares above the
most positive one, and the comparison is not even transitive. -/
theorem C12_compareInt_not_numeric :
    ∃ a b m : BitVec 64, a.toInt < m.toInt ∧ m.toInt < b.toInt ∧
      (∃ c, compareInt (.int a) (.int b) = .ok c ∧ 0 < c) ∧
      (∃ c, compareInt (.int a) (.int m) = .ok c ∧ c < 0) ∧
      (∃ c, compareInt (.int m) (.int b) = .ok c ∧ c < 0) :=
  ⟨BitVec.ofInt 64 (-2^63), BitVec.ofInt 64 (2^63 - 1), BitVec.ofInt 64 (-1),
    by decide, by decide, ⟨_, rfl, by decide⟩, ⟨_, rfl, by decide⟩, ⟨_, rfl, by decide⟩⟩

/-- What a client sees: two Puts into an in-memory map ordered by CompareInt leave the larger
int in front of the smaller one. -/
theorem C12_compareInt_map_out_of_order :
    ∃ (a b : BitVec 64) (rs : List (Spec.Ans DynKey Nat × Option Err)) (t : LLRB.Tree DynKey Nat),
      LLRB.Tree.run compareInt .nil [.op (.put (.int a) 1), .op (.put (.int b) 2)] = some (rs, t) ∧
      LLRB.Tree.getByIndex 0 t = some (some (.int b, 2)) ∧
      LLRB.Tree.getByIndex 1 t = some (some (.int a, 1)) ∧ a.toInt < b.toInt :=
  ⟨BitVec.ofInt 64 (-2^63), BitVec.ofInt 64 (2^63 - 1), _, _, rfl, rfl, rfl, by decide⟩

/-- C12, the part that holds: the sign is right whenever the true difference fits an int.
Missing: differences of 2^63 or more in magnitude, where it is wrong. -/
theorem C12_compareInt_partial (a b : BitVec 64)
    (h : -2^63 ≤ a.toInt - b.toInt ∧ a.toInt - b.toInt < 2^63) :
    ∃ c, compareInt (.int a) (.int b) = .ok c ∧
      Sign c (a.toInt < b.toInt) (a.toInt = b.toInt) (b.toInt < a.toInt) := by
  refine ⟨_, rfl, ?_⟩
  have : (a - b).toInt = a.toInt - b.toInt := by
    rw [BitVec.toInt_sub]
    exact Int.bmod_eq_of_le (by omega) (by omega)
  unfold Sign
  omega

/-- In particular on ints in `-2^62 .. 2^62-1` CompareInt is a consistent total order. -/
theorem C12_compareInt_small_partial (a b : BitVec 64) (ha : -2^62 ≤ a.toInt ∧ a.toInt < 2^62)
    (hb : -2^62 ≤ b.toInt ∧ b.toInt < 2^62) :
    ∃ c, compareInt (.int a) (.int b) = .ok c ∧
      Sign c (a.toInt < b.toInt) (a.toInt = b.toInt) (b.toInt < a.toInt) :=
  C12_compareInt_partial a b (by omega)

example : -2^62 ≤ (BitVec.ofInt 64 (-5)).toInt ∧ (BitVec.ofInt 64 (-5)).toInt < 2^62 := by decide

/-! C13 -/

/-- C13 is false: with and without monotonic readings mixed, CompareTime is not transitive. -/
theorem C13_compareTime_not_transitive :
    ∃ t u w : GoTime,
      compareTime (.time t) (.time u) = .ok (-1) ∧ compareTime (.time u) (.time w) = .ok (-1) ∧
      compareTime (.time t) (.time w) = .ok 1 :=
  ⟨⟨0, some 10⟩, ⟨5, none⟩, ⟨8, some 3⟩, rfl, rfl, rfl⟩

/-- C13, the part that holds: among times that all carry a monotonic reading, or all carry none,
the sign is the order of those readings. Missing: mixtures, where transitivity fails. -/
theorem C13_compareTime_partial (t u : GoTime) :
    (t.mono = none → u.mono = none → ∃ c, compareTime (.time t) (.time u) = .ok c ∧
      Sign c (t.wall < u.wall) (t.wall = u.wall) (u.wall < t.wall)) ∧
    (∀ a b, t.mono = some a → u.mono = some b → ∃ c, compareTime (.time t) (.time u) = .ok c ∧
      Sign c (a < b) (a = b) (b < a)) := by
  constructor
  · intro h1 h2
    refine ⟨_, rfl, ?_⟩
    simp only [GoTime.before, GoTime.after, h1, h2, decide_eq_true_eq, gt_iff_lt]
    unfold Sign; split
    · omega
    · split <;> omega
  · intro a b h1 h2
    refine ⟨_, rfl, ?_⟩
    simp only [GoTime.before, GoTime.after, h1, h2, decide_eq_true_eq, gt_iff_lt]
    unfold Sign; split
    · omega
    · split <;> omega

/-- CompareTime is antisymmetric on all times, mixtures included. -/
theorem C13_compareTime_antisymm_partial (t u : GoTime) :
    ∃ c d, compareTime (.time t) (.time u) = .ok c ∧ compareTime (.time u) (.time t) = .ok d ∧
      (c < 0 ↔ 0 < d) ∧ (c = 0 ↔ d = 0) := by
  refine ⟨_, _, rfl, rfl, ?_⟩
  unfold GoTime.before GoTime.after
  cases t.mono <;> cases u.mono <;> simp only [decide_eq_true_eq, gt_iff_lt] <;>
    (repeat' split) <;> omega

example : ∃ t u : GoTime, t.mono = some 3 ∧ u.mono = some 4 ∧ u.wall < t.wall :=
  ⟨⟨9, some 3⟩, ⟨1, some 4⟩, rfl, rfl, by decide⟩

end SM.Props

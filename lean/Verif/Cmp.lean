import Verif.LLRB.History

/-! The seven compare functions of common_api.go over dynamically typed keys. -/

namespace SM.Cmp

/-- `time.Time` as the Go documentation describes it: a wall clock reading and possibly a
monotonic clock reading. Simplified: both are unbounded integers (nanoseconds), where Go packs
bounded fields. -/
structure GoTime where
  wall : Int
  mono : Option Int
  deriving DecidableEq, Repr

/-- The dynamic values of `Key` (common_api.go:14, `interface{}`): one constructor per dynamic
type the compare functions test for, and `other` for every other type. Strings and byte slices
are their bytes (a nil slice is the empty list, as `bytes.Compare` treats it); `int` is 64 bits
wide. -/
inductive DynKey where
  | int (i : BitVec 64)
  | uint16 (n : UInt16)
  | uint32 (n : UInt32)
  | uint64 (n : UInt64)
  | str (s : List UInt8)
  | bytes (s : List UInt8)
  | time (t : GoTime)
  | other (tag : Nat)
  deriving DecidableEq, Repr

open DynKey

/-- common_api.go:19-35 `CompareInt`: `int` subtraction wraps around. -/
def compareInt : Compare DynKey
  | .int a, .int b => .ok (a - b).toInt
  | .int _, _ => .error (.compare 2)
  | _, _ => .error (.compare 1)

/-- common_api.go:37-60 `CompareUint16` -/
def compareUint16 : Compare DynKey
  | .uint16 a, .uint16 b => .ok (if a < b then -1 else if a == b then 0 else 1)
  | .uint16 _, _ => .error (.compare 2)
  | _, _ => .error (.compare 1)

/-- common_api.go:62-85 `CompareUint32` -/
def compareUint32 : Compare DynKey
  | .uint32 a, .uint32 b => .ok (if a < b then -1 else if a == b then 0 else 1)
  | .uint32 _, _ => .error (.compare 2)
  | _, _ => .error (.compare 1)

/-- common_api.go:87-110 `CompareUint64` -/
def compareUint64 : Compare DynKey
  | .uint64 a, .uint64 b => .ok (if a < b then -1 else if a == b then 0 else 1)
  | .uint64 _, _ => .error (.compare 2)
  | _, _ => .error (.compare 1)

/-- Go's `strings.Compare` and `bytes.Compare` (used at common_api.go:124, 142): the first
differing byte decides, a proper prefix is smaller. -/
def lexCompare : List UInt8 → List UInt8 → Int
  | [], [] => 0
  | [], _ :: _ => -1
  | _ :: _, [] => 1
  | a :: as, b :: bs => if a < b then -1 else if b < a then 1 else lexCompare as bs

/-- common_api.go:112-128 `CompareString` -/
def compareString : Compare DynKey
  | .str a, .str b => .ok (lexCompare a b)
  | .str _, _ => .error (.compare 2)
  | _, _ => .error (.compare 1)

/-- common_api.go:130-146 `CompareByteSlice` -/
def compareByteSlice : Compare DynKey
  | .bytes a, .bytes b => .ok (lexCompare a b)
  | .bytes _, _ => .error (.compare 2)
  | _, _ => .error (.compare 1)

/-- Go's `Time.Before`: monotonic readings decide if both times have one, otherwise the wall
clock readings. -/
def GoTime.before (t u : GoTime) : Bool :=
  match t.mono, u.mono with
  | some a, some b => a < b
  | _, _ => t.wall < u.wall

/-- Go's `Time.After`, likewise. -/
def GoTime.after (t u : GoTime) : Bool :=
  match t.mono, u.mono with
  | some a, some b => a > b
  | _, _ => t.wall > u.wall

/-- common_api.go:148-171 `CompareTime` -/
def compareTime : Compare DynKey
  | .time a, .time b => .ok (if a.before b then -1 else if a.after b then 1 else 0)
  | .time _, _ => .error (.compare 2)
  | _, _ => .error (.compare 1)

/-! ### Lexicographic order -/

theorem lexCompare_lt (a b : List UInt8) : lexCompare a b < 0 ↔ a < b := by
  induction a generalizing b with
  | nil => cases b <;> simp [lexCompare]
  | cons x a ih =>
    cases b with
    | nil => simp [lexCompare]
    | cons y b =>
      rw [List.cons_lt_cons_iff]
      simp only [lexCompare]
      split
      · rename_i h; simp [h]
      · rename_i h
        split
        · rename_i h'
          have : x ≠ y := by rintro rfl; exact h h'
          simp [h, this]
        · rename_i h'
          have : x = y := UInt8.le_antisymm (UInt8.not_lt.1 h') (UInt8.not_lt.1 h)
          simp [h, this, ih]

theorem lexCompare_eq (a b : List UInt8) : lexCompare a b = 0 ↔ a = b := by
  induction a generalizing b with
  | nil => cases b <;> simp [lexCompare]
  | cons x a ih =>
    cases b with
    | nil => simp [lexCompare]
    | cons y b =>
      simp only [lexCompare, List.cons.injEq]
      split
      · rename_i h
        have : x ≠ y := by rintro rfl; exact absurd h (UInt8.lt_irrefl x)
        simp [this]
      · rename_i h
        split
        · rename_i h'
          have : x ≠ y := by rintro rfl; exact h h'
          simp [this]
        · rename_i h'
          have : x = y := UInt8.le_antisymm (UInt8.not_lt.1 h') (UInt8.not_lt.1 h)
          simp [this, ih]

theorem lexCompare_swap (a b : List UInt8) : lexCompare b a = - lexCompare a b := by
  induction a generalizing b with
  | nil => cases b <;> simp [lexCompare]
  | cons x a ih =>
    cases b with
    | nil => simp [lexCompare]
    | cons y b =>
      simp only [lexCompare]
      by_cases h : x < y
      · have : ¬ y < x := fun h' => absurd (UInt8.lt_trans h h') (UInt8.lt_irrefl x)
        simp [h, this]
      · by_cases h' : y < x
        · simp [h, h']
        · simp [h, h', ih]

theorem lexCompare_le_trans (a b c : List UInt8) (h1 : lexCompare a b ≤ 0)
    (h2 : lexCompare b c ≤ 0) : lexCompare a c ≤ 0 := by
  have e : ∀ x y, lexCompare x y ≤ 0 ↔ x ≤ y := by
    intro x y
    rw [← List.not_lt, ← lexCompare_lt, lexCompare_swap x y]
    omega
  rw [e] at *
  exact List.le_trans h1 h2

end SM.Cmp

/-!
Shared vocabulary: error values and compare functions.
-/

namespace SM

/-- Error values. Go errors are opaque to callers apart from being non-nil; the model keeps
the place they come from so that theorems can say *which* error is handed back. -/
inductive Err where
  /-- an error returned by the client's compare function (common_api.go:17) -/
  | compare (code : Nat)
  /-- GetNode callback failed (btree_api.go BPlusTreeCallbacks) -/
  | getNode
  /-- PutNode callback failed -/
  | putNode
  /-- DiscardNode callback failed -/
  | discardNode
  /-- PackKey / PackValue / UnpackKey / UnpackValue callback failed, or cstruct failed -/
  | codec
  /-- an error made with fmt.Errorf inside the package; the number is the line in btree.go -/
  | logic (line : Nat)
  /-- Validate found an inconsistency -/
  | invalid (line : Nat)
  deriving DecidableEq, Repr

/-- common_api.go:17 `Compare`: `<0`, `0`, `>0`, or an error. -/
abbrev Compare (K : Type) := K → K → Except Err Int

/-- The strict order read off a compare function. -/
def ltb {K : Type} (cmp : Compare K) (a b : K) : Bool :=
  match cmp a b with
  | .ok c => decide (c < 0)
  | .error _ => false

/-- The equivalence read off a compare function. -/
def eqb {K : Type} (cmp : Compare K) (a b : K) : Bool :=
  match cmp a b with
  | .ok c => decide (c = 0)
  | .error _ => false

/-- What a client's compare function must satisfy: on the `Valid` keys it never fails and its
sign is a total preorder; if either operand is not valid it fails. Nothing is assumed about
the magnitude of the result, and keys that compare equal need not be identical. -/
structure Lawful {K : Type} (cmp : Compare K) (Valid : K → Prop) : Prop where
  total : ∀ a b, Valid a → Valid b → ∃ c, cmp a b = .ok c
  refl : ∀ a, Valid a → cmp a a = .ok 0
  swap : ∀ a b c d, Valid a → Valid b → cmp a b = .ok c → cmp b a = .ok d →
    (c < 0 ↔ 0 < d)
  trans : ∀ a b c x y z, Valid a → Valid b → Valid c →
    cmp a b = .ok x → cmp b c = .ok y → cmp a c = .ok z → x ≤ 0 → y ≤ 0 → z ≤ 0
  rejects : ∀ a b, ¬ (Valid a ∧ Valid b) → ∃ e, cmp a b = .error e

end SM

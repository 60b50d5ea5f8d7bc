import Verif.Order

/-! Concrete compare functions used to show that hypotheses of the theorems can be met. -/

namespace SM.Sample

/-- Numbers below 1000 in numeric order (with results other than -1, 0, 1); every other number
is rejected. -/
def cmp : Compare Nat := fun a b =>
  if 1000 ≤ a then .error (.compare a)
  else if 1000 ≤ b then .error (.compare b)
  else .ok ((a : Int) - b)

def Valid (k : Nat) : Prop := k < 1000

theorem lawful : Lawful cmp Valid where
  total a b ha hb := by
    unfold Valid at ha hb
    exact ⟨(a : Int) - b, by unfold cmp; rw [if_neg (by omega), if_neg (by omega)]⟩
  refl a ha := by
    unfold Valid at ha
    unfold cmp; rw [if_neg (by omega), if_neg (by omega)]; simp
  swap a b c d ha hb h1 h2 := by
    unfold Valid at ha hb
    unfold cmp at h1 h2
    rw [if_neg (by omega), if_neg (by omega)] at h1 h2
    simp only [Except.ok.injEq] at h1 h2
    omega
  trans a b c x y z ha hb hc h1 h2 h3 := by
    unfold Valid at ha hb hc
    unfold cmp at h1 h2 h3
    rw [if_neg (by omega), if_neg (by omega)] at h1 h2 h3
    simp only [Except.ok.injEq] at h1 h2 h3
    omega
  rejects a b h := by
    unfold Valid at h
    unfold cmp
    by_cases h1 : 1000 ≤ a
    · exact ⟨_, by rw [if_pos h1]⟩
    · exact ⟨_, by rw [if_neg h1, if_pos (by omega)]⟩

end SM.Sample

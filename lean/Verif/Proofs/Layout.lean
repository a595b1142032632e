import Verif.Model.Layout
/-! The layout that rc_mut.rs computes by hand is the one the compiler uses. -/

namespace RTree.Layout

theorem le_roundUp {n a : Nat} (ha : 0 < a) : n ≤ roundUp n a := by
  have h1 := Nat.div_add_mod (n + a - 1) a
  have h2 := Nat.mod_lt (n + a - 1) ha
  rw [roundUp, Nat.mul_comm]
  omega

theorem roundUp_lt {n a : Nat} (ha : 0 < a) : roundUp n a < n + a := by
  have h1 := Nat.div_mul_le_self (n + a - 1) a
  rw [roundUp]
  omega

theorem dvd_roundUp (n a : Nat) : a ∣ roundUp n a := ⟨_, Nat.mul_comm _ _⟩

theorem roundUp_of_dvd {n a : Nat} (ha : 0 < a) (h : a ∣ n) : roundUp n a = n := by
  obtain ⟨k, rfl⟩ := h
  have h1 : (a * k + a - 1) / a = k := by
    rw [show a * k + a - 1 = a - 1 + a * k by omega, Nat.add_mul_div_left _ _ ha, Nat.div_eq_of_lt (by omega)]
    omega
  rw [roundUp, h1, Nat.mul_comm]

theorem forBox_eq {l : Layout} (ha : 0 < l.align) : forBox l = ⟨roundUp (roundUp 1 l.align + l.size) l.align, l.align⟩ := by
  have : max 1 l.align = l.align := by omega
  simp [forBox, reprC, addField, bool, roundUp, this]

theorem valueOffset_eq (l : Layout) : valueOffset l = roundUp 1 l.align := by
  simp [valueOffset, reprC, addField, bool, roundUp]

theorem boxLayout_eq {l : Layout} (ha : 0 < l.align) (maxBytes : Nat) :
    boxLayout maxBytes l = if roundUp 1 l.align + l.size + (l.align - 1) ≤ maxBytes then some (forBox l) else none := by
  have h1 : max 1 l.align = l.align := by omega
  have h2 : (reprC [bool, ⟨0, 1⟩]).1 = ⟨1, 1⟩ := by decide
  rw [boxLayout, h2, forBox_eq ha, extend]
  simp only [h1]
  by_cases h : roundUp 1 l.align + l.size + (l.align - 1) ≤ maxBytes
  · rw [if_pos h, if_pos h]; rfl
  · rw [if_neg h, if_neg h]

end RTree.Layout

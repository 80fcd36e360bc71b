import Verif.Lemmas.Vector
import Mathlib.Algebra.Order.Group.Defs

/-! # C10 - component-wise minimum and maximum -/

namespace Cgl
open Vec

variable {S : Type*} {n : ℕ} [Zero S] [LinearOrder S] (a b c : Vec S n)

theorem C10_min_component (i : Fin n) : (a.componentMin b).data i ≤ a.data i ∧
    (a.componentMin b).data i ≤ b.data i ∧
    ((a.componentMin b).data i = a.data i ∨ (a.componentMin b).data i = b.data i) := by
  simp only [componentMin_data]
  exact ⟨min_le_left _ _, min_le_right _ _, min_choice _ _⟩

theorem C10_max_component (i : Fin n) : a.data i ≤ (a.componentMax b).data i ∧
    b.data i ≤ (a.componentMax b).data i ∧
    ((a.componentMax b).data i = a.data i ∨ (a.componentMax b).data i = b.data i) := by
  simp only [componentMax_data]
  exact ⟨le_max_left _ _, le_max_right _ _, max_choice _ _⟩

theorem C10_min_comm : a.componentMin b = b.componentMin a := by ext i; simp [min_comm]
theorem C10_max_comm : a.componentMax b = b.componentMax a := by ext i; simp [max_comm]
theorem C10_min_assoc : (a.componentMin b).componentMin c = a.componentMin (b.componentMin c) := by
  ext i; simp [min_assoc]
theorem C10_max_assoc : (a.componentMax b).componentMax c = a.componentMax (b.componentMax c) := by
  ext i; simp [max_assoc]
theorem C10_min_self : a.componentMin a = a := by ext i; simp
theorem C10_max_self : a.componentMax a = a := by ext i; simp
theorem C10_absorb : a.componentMin (a.componentMax b) = a ∧ a.componentMax (a.componentMin b) = a := by
  constructor <;> ext i <;> simp

end Cgl

namespace Cgl
open Vec

theorem C10_min_add_max {S : Type*} {n : ℕ} [CommRing S] [LinearOrder S] (a b : Vec S n) :
    a.componentMin b + a.componentMax b = a + b := by
  ext i; simp only [add_data, componentMin_data, componentMax_data]
  rcases le_total (a.data i) (b.data i) with h | h
  · rw [min_eq_left h, max_eq_right h]
  · rw [min_eq_right h, max_eq_left h, add_comm]

example : (new2 (3 : ℤ) (-4)).componentMin (new2 1 7) = new2 1 (-4) := by decide

end Cgl

import Verif.Lemmas.Vector
import Mathlib.Algebra.Order.Field.Basic
import Mathlib.Tactic.Linarith
import Mathlib.Tactic.NormNum

/-! # C09 - linear interpolation of vectors -/

namespace Cgl
open Vec

variable {S : Type*} {n : ℕ}

theorem C09_lerp_zero [CommRing S] (a b : Vec S n) : a.lerp b 0 = a := by ext i; simp [lerp]
theorem C09_lerp_one [CommRing S] (a b : Vec S n) : a.lerp b 1 = b := by ext i; simp [lerp]
theorem C09_lerp_affine [CommRing S] (a b : Vec S n) (t : S) :
    a.lerp b t = a * (1 - t) + b * t := by ext i; simp [lerp]; ring
theorem C09_lerp_swap [CommRing S] (a b : Vec S n) (t : S) : a.lerp b t = b.lerp a (1 - t) := by
  ext i; simp [lerp]; ring
theorem C09_lerp_self [CommRing S] (a : Vec S n) (t : S) : a.lerp a t = a := by ext i; simp [lerp]

theorem C09_lerp_between [Field S] [LinearOrder S] [IsStrictOrderedRing S] (a b : Vec S n) (t : S)
    (h0 : 0 ≤ t) (h1 : t ≤ 1) (i : Fin n) :
    min (a.data i) (b.data i) ≤ (a.lerp b t).data i ∧ (a.lerp b t).data i ≤ max (a.data i) (b.data i) := by
  simp only [lerp, add_data, mulS_data, sub_data]
  rcases le_total (a.data i) (b.data i) with h | h
  · rw [min_eq_left h, max_eq_right h]
    constructor <;> nlinarith
  · rw [min_eq_right h, max_eq_left h]
    constructor <;> nlinarith

/-- strictly monotone along every component on which the end points differ -/
theorem C09_lerp_strict_mono [Field S] [LinearOrder S] [IsStrictOrderedRing S] (a b : Vec S n) (s t : S)
    (i : Fin n) (hab : a.data i < b.data i) (hst : s < t) :
    (a.lerp b s).data i < (a.lerp b t).data i := by
  simp only [lerp, add_data, mulS_data, sub_data]
  nlinarith

example : (new2 (0 : ℚ) 10).lerp (new2 4 20) (1 / 4) = new2 1 (25 / 2) := by
  apply ext2 <;> simp [lerp]; norm_num

end Cgl

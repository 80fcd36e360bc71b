import Verif.Lemmas.Vector
import Mathlib.Data.BitVec
import Mathlib.Algebra.Order.Ring.Rat
import Mathlib.Tactic.NormNum

/-!
# C01 - the dot product

`Vec.dot` is the accumulation loop of vector.rs 241-249.
-/

namespace Cgl
open Vec

variable {S : Type*} {n : ℕ}

/-- The loop computes the sum of the products of corresponding components. -/
theorem C01_dot_is_sum_of_products [CommRing S] (a b : Vec S n) :
    a.dot b = ∑ i, a.data i * b.data i := dot_eq_sum a b

theorem C01_dot_comm [CommRing S] (a b : Vec S n) : a.dot b = b.dot a := by
  simp only [dot_eq_sum, mul_comm]

theorem C01_dot_add_left [CommRing S] (a b c : Vec S n) : (a + b).dot c = a.dot c + b.dot c := by
  simp only [dot_eq_sum, add_data, add_mul, Finset.sum_add_distrib]

theorem C01_dot_add_right [CommRing S] (a b c : Vec S n) : a.dot (b + c) = a.dot b + a.dot c := by
  rw [C01_dot_comm, C01_dot_add_left, C01_dot_comm b, C01_dot_comm c]

theorem C01_dot_smul_left [CommRing S] (k : S) (a b : Vec S n) : (k * a).dot b = k * a.dot b := by
  simp only [dot_eq_sum, smul_data, mul_assoc, Finset.mul_sum]

theorem C01_dot_smul_right [CommRing S] (k : S) (a b : Vec S n) : a.dot (k * b) = k * a.dot b := by
  rw [C01_dot_comm, C01_dot_smul_left, C01_dot_comm]

theorem C01_dot_sub_left [CommRing S] (a b c : Vec S n) : (a - b).dot c = a.dot c - b.dot c := by
  simp only [dot_eq_sum, sub_data, sub_mul, Finset.sum_sub_distrib]

theorem C01_dot_neg_left [CommRing S] (a b : Vec S n) : (-a).dot b = -a.dot b := by
  simp only [dot_eq_sum, neg_data, neg_mul, Finset.sum_neg_distrib]

/-- `norm_squared` and `magnitude_squared` are the dot product of a vector with itself; this needs no
law of the scalars at all. -/
theorem C01_norm_squared_eq_dot [Zero S] [Add S] [Mul S] (a : Vec S n) :
    a.normSquared = a.dot a ∧ a.magnitudeSquared = a.dot a := ⟨rfl, rfl⟩

theorem C01_dot_self_nonneg [Field S] [LinearOrder S] [IsStrictOrderedRing S] (a : Vec S n) :
    0 ≤ a.dot a := by
  rw [dot_eq_sum]; exact Finset.sum_nonneg fun i _ => mul_self_nonneg _

theorem C01_dot_self_eq_zero [Field S] [LinearOrder S] [IsStrictOrderedRing S] (a : Vec S n) :
    a.dot a = 0 ↔ a = 0 := by
  rw [dot_eq_sum, Finset.sum_eq_zero_iff_of_nonneg fun i _ => mul_self_nonneg _]
  simp [Vec.ext_iff, funext_iff]

/-- Cauchy-Schwarz. -/
theorem C01_cauchy_schwarz [Field S] [LinearOrder S] [IsStrictOrderedRing S] (a b : Vec S n) :
    (a.dot b) ^ 2 ≤ a.normSquared * b.normSquared := by
  have := Finset.sum_mul_sq_le_sq_mul_sq Finset.univ a.data b.data
  simpa only [dot_eq_sum, normSquared_eq_sum, sq] using this

/-- The ring laws cover wrapping machine integers. -/
example (v w : Vec (BitVec 32) 3) : v.dot w = w.dot v := C01_dot_comm v w

/-- A concrete non-zero instance of the order facts. -/
example : (new3 (1 : ℚ) 2 3).dot (new3 (-2) 0 5) = 13 := by
  rw [dot3]; simp; norm_num

end Cgl

import Verif.Lemmas.Matrix
import Mathlib.Tactic.NormNum

/-! # C13 - matrix multiplication is the linear-algebra product -/

namespace Cgl
open Mat

variable {S : Type*} {R N K C : ℕ}

/-- entry in row `r`, column `c` of `A * B` -/
theorem C13_mul_entry [NonUnitalNonAssocSemiring S] (A : Mat S R N) (B : Mat S N C) (r : Fin R) (c : Fin C) :
    (A * B).data c r = ∑ k, A.data k r * B.data c k := mul_data A B c r

theorem C13_mul_vec_entry [NonUnitalNonAssocSemiring S] (A : Mat S R C) (v : Vec S C) (r : Fin R) :
    (A * v).data r = ∑ k, A.data k r * v.data k := mulVec_data A v r

section Ring
variable [CommRing S]

theorem C13_mul_assoc (A : Mat S R N) (B : Mat S N K) (D : Mat S K C) : A * B * D = A * (B * D) := by
  apply toMatrix_injective; simp only [toMatrix_mul, Matrix.mul_assoc]

theorem C13_mul_add (A : Mat S R N) (B D : Mat S N C) : A * (B + D) = A * B + A * D := by
  apply toMatrix_injective; simp only [toMatrix_mul, toMatrix_add, Matrix.mul_add]

theorem C13_add_mul (A B : Mat S R N) (D : Mat S N C) : (A + B) * D = A * D + B * D := by
  apply toMatrix_injective; simp only [toMatrix_mul, toMatrix_add, Matrix.add_mul]

theorem C13_one_mul (A : Mat S R C) : (identity : Mat S R R) * A = A := by
  apply toMatrix_injective; simp only [toMatrix_mul, toMatrix_identity, Matrix.one_mul]

theorem C13_mul_one (A : Mat S R C) : A * (identity : Mat S C C) = A := by
  apply toMatrix_injective; simp only [toMatrix_mul, toMatrix_identity, Matrix.mul_one]

theorem C13_mul_zero (A : Mat S R N) : A * (0 : Mat S N C) = 0 := by
  ext c r; simp [mul_data]
theorem C13_zero_mul (A : Mat S N C) : (0 : Mat S R N) * A = 0 := by
  ext c r; simp [mul_data]

/-- the identity is the only left unit, and the only right unit -/
theorem C13_identity_unique (E : Mat S N N) (h : ∀ A : Mat S N N, E * A = A) : E = identity := by
  rw [← C13_mul_one E]; exact h _

theorem C13_scalar_left (k : S) (A : Mat S R N) (B : Mat S N C) : (k * A) * B = k * (A * B) := by
  ext c r; simp [mul_data, Finset.mul_sum, mul_assoc]

theorem C13_scalar_right (k : S) (A : Mat S R N) (B : Mat S N C) : A * (B * k) = (A * B) * k := by
  ext c r; simp [mul_data, Finset.sum_mul, mul_assoc]

theorem C13_scalar_comm (k : S) (A : Mat S R C) : k * A = A * k := by
  ext c r; simp [mul_comm]

theorem C13_mul_mul_vec (A : Mat S R N) (B : Mat S N C) (v : Vec S C) : (A * B) * v = A * (B * v) := by
  apply Vec.ext; simp only [mulVec_eq, toMatrix_mul, Matrix.mulVec_mulVec]

theorem C13_identity_mul_vec (v : Vec S N) : (identity : Mat S N N) * v = v := by
  apply Vec.ext; simp only [mulVec_eq, toMatrix_identity, Matrix.one_mulVec]

theorem C13_mul_vec_add (A : Mat S R C) (v w : Vec S C) : A * (v + w) = A * v + A * w := by
  ext r; simp [mulVec_data, mul_add, Finset.sum_add_distrib]

theorem C13_mul_vec_scalar (A : Mat S R C) (v : Vec S C) (k : S) : A * (v * k) = (A * v) * k := by
  ext r; simp [mulVec_data, Finset.sum_mul, mul_assoc]

theorem C13_add_mul_vec (A B : Mat S R C) (v : Vec S C) : (A + B) * v = A * v + B * v := by
  ext r; simp [mulVec_data, add_mul, Finset.sum_add_distrib]

/-- column `c` of the product is `A` applied to column `c` of `B` -/
theorem C13_column_of_product (A : Mat S R N) (B : Mat S N C) (c : Fin C) :
    (⟨(A * B).data c⟩ : Vec S R) = A * (⟨B.data c⟩ : Vec S N) := by
  ext r; simp [mul_data, mulVec_data]

/-- a matrix is determined by its action on vectors -/
theorem C13_ext_of_action (A B : Mat S R C) (h : ∀ v : Vec S C, A * v = B * v) : A = B := by
  ext c r
  have h1 := congrArg (fun w => w.data r) (h ⟨fun i => if i = c then 1 else 0⟩)
  simpa [mulVec_data] using h1

end Ring

theorem C13_mul_assign [Zero S] [Mul S] (A : Mat S R C) (k : S) : A.mulAssign k = A * k := by
  ext c r; simp

/-- matrix multiplication does not commute, so the order of the factors in these statements matters -/
example : ∃ A B : Mat ℤ 2 2, A * B ≠ B * A := by
  refine ⟨⟨![![0, 0], ![1, 0]]⟩, ⟨![![0, 1], ![0, 0]]⟩, fun h => ?_⟩
  have := congrArg (fun m => m.data 0 0) h
  simp [mul_data, Fin.sum_univ_two] at this

/-- a 2x3 times 3x1 product -/
example : (⟨![![1, 4], ![2, 5], ![3, 6]]⟩ : Mat ℤ 2 3) * (⟨![7, 8, 9]⟩ : Vec ℤ 3) = Vec.new2 50 122 := by
  apply Vec.ext2 <;> simp [mulVec_data, Fin.sum_univ_three]

end Cgl

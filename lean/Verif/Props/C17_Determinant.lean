import Verif.Lemmas.MatrixSq
import Verif.Props.C15_Swaps

/-! # C17 - `determinant()` is the determinant -/

namespace Cgl
open Mat

/-- Leibniz' signed-permutation sum over the entries in row `σ i`, column `i`. -/
def Spec.leibniz {S : Type*} [CommRing S] {n : ℕ} (A : Mat S n n) : S :=
  ∑ σ : Equiv.Perm (Fin n), ((Equiv.Perm.sign σ : ℤ) : S) * ∏ i, A.data i (σ i)

variable {S : Type*} [CommRing S]

theorem leibniz_eq {n : ℕ} (A : Mat S n n) : Spec.leibniz A = A.toMatrix.det := by
  simp [Spec.leibniz, Matrix.det_apply, Units.smul_def, zsmul_eq_mul]

theorem C17_det1 (A : Mat S 1 1) : A.determinant1 = Spec.leibniz A := by
  rw [determinant1_eq, leibniz_eq]
theorem C17_det2 (A : Mat S 2 2) : A.determinant2 = Spec.leibniz A := by
  rw [determinant2_eq, leibniz_eq]
theorem C17_det3 (A : Mat S 3 3) : A.determinant3 = Spec.leibniz A := by
  rw [determinant3_eq, leibniz_eq]
theorem C17_det4 (A : Mat S 4 4) : A.determinant4 = Spec.leibniz A := by
  rw [determinant4_eq, leibniz_eq]

/-! ### consequences -/

theorem C17_mul1 (A B : Mat S 1 1) : (A * B).determinant1 = A.determinant1 * B.determinant1 := by
  simp only [determinant1_eq, toMatrix_mul, Matrix.det_mul]
theorem C17_mul2 (A B : Mat S 2 2) : (A * B).determinant2 = A.determinant2 * B.determinant2 := by
  simp only [determinant2_eq, toMatrix_mul, Matrix.det_mul]
theorem C17_mul3 (A B : Mat S 3 3) : (A * B).determinant3 = A.determinant3 * B.determinant3 := by
  simp only [determinant3_eq, toMatrix_mul, Matrix.det_mul]
theorem C17_mul4 (A B : Mat S 4 4) : (A * B).determinant4 = A.determinant4 * B.determinant4 := by
  simp only [determinant4_eq, toMatrix_mul, Matrix.det_mul]

theorem C17_transpose1 (A : Mat S 1 1) : A.transpose.determinant1 = A.determinant1 := by
  simp only [determinant1_eq, toMatrix_transpose, Matrix.det_transpose]
theorem C17_transpose2 (A : Mat S 2 2) : A.transpose.determinant2 = A.determinant2 := by
  simp only [determinant2_eq, toMatrix_transpose, Matrix.det_transpose]
theorem C17_transpose3 (A : Mat S 3 3) : A.transpose.determinant3 = A.determinant3 := by
  simp only [determinant3_eq, toMatrix_transpose, Matrix.det_transpose]
theorem C17_transpose4 (A : Mat S 4 4) : A.transpose.determinant4 = A.determinant4 := by
  simp only [determinant4_eq, toMatrix_transpose, Matrix.det_transpose]

theorem C17_identity1 : (identity : Mat S 1 1).determinant1 = 1 := by
  simp only [determinant1_eq, toMatrix_identity, Matrix.det_one]
theorem C17_identity2 : (identity : Mat S 2 2).determinant2 = 1 := by
  simp only [determinant2_eq, toMatrix_identity, Matrix.det_one]
theorem C17_identity3 : (identity : Mat S 3 3).determinant3 = 1 := by
  simp only [determinant3_eq, toMatrix_identity, Matrix.det_one]
theorem C17_identity4 : (identity : Mat S 4 4).determinant4 = 1 := by
  simp only [determinant4_eq, toMatrix_identity, Matrix.det_one]

private theorem exchange_eq {n : ℕ} (a b i : Fin n) : Spec.exchange n a b i = Equiv.swap a b i := by
  simp [Spec.exchange, Equiv.swap_apply_def]

private theorem leibniz_swap_columns {n : ℕ} (A B : Mat S n n) (a b : Fin n) (hab : a ≠ b)
    (h : A.swapColumns a b = .ok B) : B.toMatrix.det = -A.toMatrix.det := by
  obtain ⟨B', h1, h2⟩ := C15_swap_columns A a b
  have hB : B = B' := by rw [h1] at h; injection h with h; exact h.symm
  subst hB
  have : B.toMatrix = A.toMatrix.submatrix id (Equiv.swap a b) := by
    ext r c; simp [h2, exchange_eq]
  rw [this, Matrix.det_permute', Equiv.Perm.sign_swap hab]; simp

private theorem leibniz_swap_rows {n : ℕ} (A B : Mat S n n) (a b : Fin n) (hab : a ≠ b)
    (h : A.swapRows a b = .ok B) : B.toMatrix.det = -A.toMatrix.det := by
  obtain ⟨B', h1, h2⟩ := C15_swap_rows A a b
  have hB : B = B' := by rw [h1] at h; injection h with h; exact h.symm
  subst hB
  have : B.toMatrix = A.toMatrix.submatrix (Equiv.swap a b) id := by
    ext r c; simp [h2, exchange_eq]
  rw [this, Matrix.det_permute, Equiv.Perm.sign_swap hab]; simp

theorem C17_swap_columns2 (A B : Mat S 2 2) (a b : Fin 2) (hab : a ≠ b)
    (h : A.swapColumns a b = .ok B) : B.determinant2 = -A.determinant2 := by
  simp only [determinant2_eq]; exact leibniz_swap_columns A B a b hab h
theorem C17_swap_columns3 (A B : Mat S 3 3) (a b : Fin 3) (hab : a ≠ b)
    (h : A.swapColumns a b = .ok B) : B.determinant3 = -A.determinant3 := by
  simp only [determinant3_eq]; exact leibniz_swap_columns A B a b hab h
theorem C17_swap_columns4 (A B : Mat S 4 4) (a b : Fin 4) (hab : a ≠ b)
    (h : A.swapColumns a b = .ok B) : B.determinant4 = -A.determinant4 := by
  simp only [determinant4_eq]; exact leibniz_swap_columns A B a b hab h
theorem C17_swap_rows2 (A B : Mat S 2 2) (a b : Fin 2) (hab : a ≠ b)
    (h : A.swapRows a b = .ok B) : B.determinant2 = -A.determinant2 := by
  simp only [determinant2_eq]; exact leibniz_swap_rows A B a b hab h
theorem C17_swap_rows3 (A B : Mat S 3 3) (a b : Fin 3) (hab : a ≠ b)
    (h : A.swapRows a b = .ok B) : B.determinant3 = -A.determinant3 := by
  simp only [determinant3_eq]; exact leibniz_swap_rows A B a b hab h
theorem C17_swap_rows4 (A B : Mat S 4 4) (a b : Fin 4) (hab : a ≠ b)
    (h : A.swapRows a b = .ok B) : B.determinant4 = -A.determinant4 := by
  simp only [determinant4_eq]; exact leibniz_swap_rows A B a b hab h

/-- scaling every entry by `k` scales the determinant by `k` to the power of the size -/
theorem C17_scalar1 (A : Mat S 1 1) (k : S) : (A * k).determinant1 = k * A.determinant1 := by
  simp [determinant1, mul_comm]
theorem C17_scalar2 (A : Mat S 2 2) (k : S) : (A * k).determinant2 = k ^ 2 * A.determinant2 := by
  simp [determinant2]; ring
theorem C17_scalar3 (A : Mat S 3 3) (k : S) : (A * k).determinant3 = k ^ 3 * A.determinant3 := by
  simp [determinant3]; ring
theorem C17_scalar4 (A : Mat S 4 4) (k : S) : (A * k).determinant4 = k ^ 4 * A.determinant4 := by
  simp [determinant4]; ring

/-- the determinant of a diagonal matrix is the product of the diagonal -/
theorem C17_diagonal4 (v : Vec S 4) :
    (fromDiagonal v).determinant4 = v.data 0 * v.data 1 * v.data 2 * v.data 3 := by
  simp [determinant4]

example : (new4x4 1 2 0 1 3 1 4 0 0 2 1 5 2 0 1 1 : Mat ℤ 4 4).determinant4 = -60 := by
  simp [determinant4]

end Cgl

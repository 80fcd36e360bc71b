import Verif.Lemmas.Matrix
import Verif.Lemmas.Point
import Verif.Lemmas.Angle
import Verif.Model.MatrixSq
import Mathlib.LinearAlgebra.Matrix.Determinant.Basic
import Mathlib.LinearAlgebra.Matrix.NonsingularInverse
import Mathlib.Tactic.LinearCombination
import Mathlib.Tactic.FieldSimp
import Mathlib.Tactic.FinCases

/-! # Auxiliary lemmas on the fixed-size matrices -/

namespace Cgl
namespace Mat

variable {S : Type*}

theorem ext1 {a b : Mat S 1 1} (h : a.data 0 0 = b.data 0 0) : a = b := by
  apply ext_data; intro c r; fin_cases c; fin_cases r; exact h

theorem ext2 {a b : Mat S 2 2} (h00 : a.data 0 0 = b.data 0 0) (h01 : a.data 0 1 = b.data 0 1)
    (h10 : a.data 1 0 = b.data 1 0) (h11 : a.data 1 1 = b.data 1 1) : a = b := by
  apply ext_data; intro c r; fin_cases c <;> fin_cases r <;> assumption

theorem ext3 {a b : Mat S 3 3}
    (h00 : a.data 0 0 = b.data 0 0) (h01 : a.data 0 1 = b.data 0 1) (h02 : a.data 0 2 = b.data 0 2)
    (h10 : a.data 1 0 = b.data 1 0) (h11 : a.data 1 1 = b.data 1 1) (h12 : a.data 1 2 = b.data 1 2)
    (h20 : a.data 2 0 = b.data 2 0) (h21 : a.data 2 1 = b.data 2 1) (h22 : a.data 2 2 = b.data 2 2) :
    a = b := by
  apply ext_data; intro c r; fin_cases c <;> fin_cases r <;> assumption

theorem ext4 {a b : Mat S 4 4}
    (h00 : a.data 0 0 = b.data 0 0) (h01 : a.data 0 1 = b.data 0 1) (h02 : a.data 0 2 = b.data 0 2)
    (h03 : a.data 0 3 = b.data 0 3)
    (h10 : a.data 1 0 = b.data 1 0) (h11 : a.data 1 1 = b.data 1 1) (h12 : a.data 1 2 = b.data 1 2)
    (h13 : a.data 1 3 = b.data 1 3)
    (h20 : a.data 2 0 = b.data 2 0) (h21 : a.data 2 1 = b.data 2 1) (h22 : a.data 2 2 = b.data 2 2)
    (h23 : a.data 2 3 = b.data 2 3)
    (h30 : a.data 3 0 = b.data 3 0) (h31 : a.data 3 1 = b.data 3 1) (h32 : a.data 3 2 = b.data 3 2)
    (h33 : a.data 3 3 = b.data 3 3) : a = b := by
  apply ext_data; intro c r; fin_cases c <;> fin_cases r <;> assumption

/-! ### entries of `new` -/

section New
variable (a b c d e f g h i j k l m n o p : S)

@[simp] theorem new1x1_data (x y) : (new1x1 a).data x y = ![![a]] x y := rfl
@[simp] theorem new2x2_data (x y) : (new2x2 a b c d).data x y = ![![a, b], ![c, d]] x y := rfl
@[simp] theorem new3x3_data (x y) :
    (new3x3 a b c d e f g h i).data x y = ![![a, b, c], ![d, e, f], ![g, h, i]] x y := rfl
@[simp] theorem new4x4_data (x y) : (new4x4 a b c d e f g h i j k l m n o p).data x y =
    ![![a, b, c, d], ![e, f, g, h], ![i, j, k, l], ![m, n, o, p]] x y := rfl

end New

/-! ### determinants -/

section Det
variable [CommRing S]

theorem determinant1_eq (m : Mat S 1 1) : m.determinant1 = m.toMatrix.det := by
  rw [Matrix.det_fin_one]; rfl

theorem determinant2_eq (m : Mat S 2 2) : m.determinant2 = m.toMatrix.det := by
  simp only [Matrix.det_fin_two, determinant2, toMatrix_apply]; ring

theorem determinant3_eq (m : Mat S 3 3) : m.determinant3 = m.toMatrix.det := by
  simp only [Matrix.det_fin_three, determinant3, toMatrix_apply]; ring

theorem determinant4_eq (m : Mat S 4 4) : m.determinant4 = m.toMatrix.det := by
  rw [Matrix.det_succ_row_zero]
  simp only [Matrix.det_fin_three, determinant4, toMatrix_apply, Matrix.submatrix_apply, Fin.sum_univ_four]
  simp [Fin.succAbove, Fin.lt_def]
  ring

end Det

/-! ### inverses -/

section Inverse
variable [Field S] [DecidableEq S]

theorem tryInverse1_none (m : Mat S 1 1) : m.tryInverse1 = none ↔ m.determinant1 = 0 := by
  unfold tryInverse1; simp only [beq_iff_eq]; split_ifs <;> simp [*]
theorem tryInverse2_none (m : Mat S 2 2) : m.tryInverse2 = none ↔ m.determinant2 = 0 := by
  unfold tryInverse2; simp only [beq_iff_eq]; split_ifs <;> simp [*]
theorem tryInverse3_none (m : Mat S 3 3) : m.tryInverse3 = none ↔ m.determinant3 = 0 := by
  unfold tryInverse3; simp only [beq_iff_eq]; split_ifs <;> simp [*]
theorem tryInverse4_none (m : Mat S 4 4) : m.tryInverse4 = none ↔ m.determinant4 = 0 := by
  unfold tryInverse4; simp only [beq_iff_eq]; split_ifs <;> simp [*]

theorem tryInverse1_mul {m k : Mat S 1 1} (h : m.tryInverse1 = some k) : k * m = identity := by
  unfold tryInverse1 at h; simp only [beq_iff_eq] at h
  split_ifs at h with h0
  simp only [Option.some.injEq] at h
  subst h
  apply ext1
  simp only [mul_data, Fin.sum_univ_one, new1x1_data, identity_data]
  have h1 : m.data 0 0 ≠ 0 := h0
  simp [determinant1, h1]

theorem tryInverse2_mul {m k : Mat S 2 2} (h : m.tryInverse2 = some k) : k * m = identity := by
  unfold tryInverse2 at h; simp only [beq_iff_eq] at h
  split_ifs at h with h0
  simp only [Option.some.injEq] at h
  have hd : 1 / m.determinant2 * m.determinant2 = 1 := by field_simp
  generalize hdi : 1 / m.determinant2 = di at h hd
  unfold determinant2 at hd
  subst h
  apply ext2 <;> simp [mul_data, Fin.sum_univ_two] <;> first | ring1 | linear_combination hd

theorem tryInverse3_mul {m k : Mat S 3 3} (h : m.tryInverse3 = some k) : k * m = identity := by
  unfold tryInverse3 at h; simp only [beq_iff_eq] at h
  split_ifs at h with h0
  simp only [Option.some.injEq] at h
  have hd : 1 / m.determinant3 * m.determinant3 = 1 := by field_simp
  generalize hdi : 1 / m.determinant3 = di at h hd
  unfold determinant3 at hd
  subst h
  apply ext3 <;> simp [mul_data, Fin.sum_univ_three] <;> first | ring1 | linear_combination hd

theorem tryInverse4_mul {m k : Mat S 4 4} (h : m.tryInverse4 = some k) : k * m = identity := by
  unfold tryInverse4 at h; simp only [beq_iff_eq] at h
  split_ifs at h with h0
  simp only [Option.some.injEq] at h
  have hd : 1 / m.determinant4 * m.determinant4 = 1 := by field_simp
  generalize hdi : 1 / m.determinant4 = di at h hd
  unfold determinant4 at hd
  subst h
  apply ext4 <;> simp [mul_data, Fin.sum_univ_four] <;> first | ring1 | linear_combination hd

end Inverse

theorem mul_comm_of_identity [CommRing S] {n : ℕ} {a b : Mat S n n} (h : a * b = identity) : b * a = identity := by
  apply toMatrix_injective
  rw [toMatrix_mul, toMatrix_identity, mul_eq_one_comm, ← toMatrix_mul, h, toMatrix_identity]

end Mat
end Cgl

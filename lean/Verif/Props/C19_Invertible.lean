import Verif.Props.C18_Inverse

/-! # C19 - `is_invertible` against `try_inverse` (matrices; complex numbers and quaternions in their
own files)

`ulpsEq x y` is the comparison `x == y` up to the library's default tolerances; all that is used of it is
that equal numbers compare equal. -/

namespace Cgl
open Mat

variable {S : Type*} [Field S] [DecidableEq S] (ulpsEq : S → S → Bool)

/-- when `is_invertible` says yes, `try_inverse` succeeds -/
theorem C19_is_invertible1 (hrefl : ∀ x, ulpsEq x x = true) (A : Mat S 1 1)
    (h : A.isInvertible1 ulpsEq = true) : ∃ B : Mat S 1 1, A.tryInverse1 = some B ∧ A * B = identity := by
  have h0 : A.determinant1 ≠ 0 := by
    intro h0; simp [isInvertible1, h0, hrefl] at h
  cases hA : A.tryInverse1 with
  | none => exact absurd ((tryInverse1_none A).mp hA) h0
  | some B => exact ⟨B, rfl, C18_try_inverse1.right A B hA⟩

theorem C19_is_invertible2 (hrefl : ∀ x, ulpsEq x x = true) (A : Mat S 2 2)
    (h : A.isInvertible2 ulpsEq = true) : ∃ B : Mat S 2 2, A.tryInverse2 = some B ∧ A * B = identity := by
  have h0 : A.determinant2 ≠ 0 := by
    intro h0; simp [isInvertible2, h0, hrefl] at h
  cases hA : A.tryInverse2 with
  | none => exact absurd ((tryInverse2_none A).mp hA) h0
  | some B => exact ⟨B, rfl, C18_try_inverse2.right A B hA⟩

theorem C19_is_invertible3 (hrefl : ∀ x, ulpsEq x x = true) (A : Mat S 3 3)
    (h : A.isInvertible3 ulpsEq = true) : ∃ B : Mat S 3 3, A.tryInverse3 = some B ∧ A * B = identity := by
  have h0 : A.determinant3 ≠ 0 := by
    intro h0; simp [isInvertible3, h0, hrefl] at h
  cases hA : A.tryInverse3 with
  | none => exact absurd ((tryInverse3_none A).mp hA) h0
  | some B => exact ⟨B, rfl, C18_try_inverse3.right A B hA⟩

theorem C19_is_invertible4 (hrefl : ∀ x, ulpsEq x x = true) (A : Mat S 4 4)
    (h : A.isInvertible4 ulpsEq = true) : ∃ B : Mat S 4 4, A.tryInverse4 = some B ∧ A * B = identity := by
  have h0 : A.determinant4 ≠ 0 := by
    intro h0; simp [isInvertible4, h0, hrefl] at h
  cases hA : A.tryInverse4 with
  | none => exact absurd ((tryInverse4_none A).mp hA) h0
  | some B => exact ⟨B, rfl, C18_try_inverse4.right A B hA⟩

omit [DecidableEq S] in
/-- `is_invertible` says no exactly when the determinant compares equal to zero -/
theorem C19_is_invertible_iff_det :
    (∀ A : Mat S 1 1, A.isInvertible1 ulpsEq = true ↔ ulpsEq (Spec.leibniz A) 0 = false) ∧
    (∀ A : Mat S 2 2, A.isInvertible2 ulpsEq = true ↔ ulpsEq (Spec.leibniz A) 0 = false) ∧
    (∀ A : Mat S 3 3, A.isInvertible3 ulpsEq = true ↔ ulpsEq (Spec.leibniz A) 0 = false) ∧
    (∀ A : Mat S 4 4, A.isInvertible4 ulpsEq = true ↔ ulpsEq (Spec.leibniz A) 0 = false) := by
  refine ⟨fun A => ?_, fun A => ?_, fun A => ?_, fun A => ?_⟩
  · simp [isInvertible1, C17_det1]
  · simp [isInvertible2, C17_det2]
  · simp [isInvertible3, C17_det3]
  · simp [isInvertible4, C17_det4]

/-- The converse fails as soon as the tolerance accepts some non-zero number `δ` as zero: the 2x2
matrix `diag(δ, 1)` has an inverse, which `try_inverse` returns, although `is_invertible` denies it. -/
theorem C19_tolerance_rejects_invertible (δ : S) (hδ : δ ≠ 0) (htol : ulpsEq δ 0 = true) :
    ∃ A B : Mat S 2 2, A.isInvertible2 ulpsEq = false ∧ A.tryInverse2 = some B ∧
      A * B = identity := by
  refine ⟨new2x2 δ 0 0 1, new2x2 δ⁻¹ 0 0 1, ?_, ?_, ?_⟩
  · simp [isInvertible2, determinant2, htol]
  · apply C18_unique_right C18_try_inverse2
    apply ext2 <;> simp [mul_data, Fin.sum_univ_two, hδ]
  · apply ext2 <;> simp [mul_data, Fin.sum_univ_two, hδ]

/-- an absolute tolerance of 1/1000 meets the hypotheses above -/
example : ∃ A B : Mat ℚ 2 2, A.isInvertible2 (fun x y => decide (|x - y| ≤ 1 / 1000)) = false ∧
    A.tryInverse2 = some B ∧ A * B = identity :=
  C19_tolerance_rejects_invertible _ (1 / 2000) (by norm_num) (by norm_num)
example : ∃ B : Mat ℚ 2 2, (new2x2 1 2 3 4 : Mat ℚ 2 2).tryInverse2 = some B ∧
    (new2x2 1 2 3 4 : Mat ℚ 2 2) * B = identity :=
  C19_is_invertible2 (fun x y => decide (|x - y| ≤ 1 / 1000)) (by intro x; norm_num) _
    (by simp [isInvertible2, determinant2]; norm_num)

end Cgl

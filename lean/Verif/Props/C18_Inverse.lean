import Verif.Props.C17_Determinant

/-! # C18 - `try_inverse` returns the two-sided inverse exactly when it exists -/

namespace Cgl
open Mat

variable {S : Type*} [Field S] {n : ℕ}

/-- `f` computes inverses: it fails exactly on matrices of determinant 0, and otherwise returns a
two-sided inverse. -/
structure Spec.ComputesInverse (f : Mat S n n → Option (Mat S n n)) : Prop where
  none_iff : ∀ A, f A = none ↔ Spec.leibniz A = 0
  right : ∀ A B, f A = some B → A * B = identity
  left : ∀ A B, f A = some B → B * A = identity

section Sizes
variable [DecidableEq S]

theorem C18_try_inverse1 : Spec.ComputesInverse (tryInverse1 (S := S)) where
  none_iff A := by rw [tryInverse1_none, C17_det1]
  right _ _ h := mul_comm_of_identity (tryInverse1_mul h)
  left _ _ h := tryInverse1_mul h

theorem C18_try_inverse2 : Spec.ComputesInverse (tryInverse2 (S := S)) where
  none_iff A := by rw [tryInverse2_none, C17_det2]
  right _ _ h := mul_comm_of_identity (tryInverse2_mul h)
  left _ _ h := tryInverse2_mul h

theorem C18_try_inverse3 : Spec.ComputesInverse (tryInverse3 (S := S)) where
  none_iff A := by rw [tryInverse3_none, C17_det3]
  right _ _ h := mul_comm_of_identity (tryInverse3_mul h)
  left _ _ h := tryInverse3_mul h

theorem C18_try_inverse4 : Spec.ComputesInverse (tryInverse4 (S := S)) where
  none_iff A := by rw [tryInverse4_none, C17_det4]
  right _ _ h := mul_comm_of_identity (tryInverse4_mul h)
  left _ _ h := tryInverse4_mul h

end Sizes

/-! ### consequences, for any of the four sizes -/

section Consequences
variable {f : Mat S n n → Option (Mat S n n)} (hf : Spec.ComputesInverse f)

private theorem mul_assoc' (A B D : Mat S n n) : A * B * D = A * (B * D) := by
  apply toMatrix_injective; simp only [toMatrix_mul, Matrix.mul_assoc]
private theorem one_mul' (A : Mat S n n) : (identity : Mat S n n) * A = A := by
  apply toMatrix_injective; simp only [toMatrix_mul, toMatrix_identity, Matrix.one_mul]
private theorem mul_one' (A : Mat S n n) : A * (identity : Mat S n n) = A := by
  apply toMatrix_injective; simp only [toMatrix_mul, toMatrix_identity, Matrix.mul_one]

include hf

/-- the result is the only inverse: any one-sided inverse is what `try_inverse` returns -/
theorem C18_unique_right (A D : Mat S n n) (h : A * D = identity) : f A = some D := by
  cases hA : f A with
  | none =>
    have h0 := (hf.none_iff A).mp hA
    rw [leibniz_eq] at h0
    have h1 := congrArg Matrix.det (congrArg toMatrix h)
    rw [toMatrix_mul, Matrix.det_mul, h0, toMatrix_identity, Matrix.det_one, zero_mul] at h1
    exact absurd h1.symm one_ne_zero
  | some B =>
    congr 1
    calc B = B * (A * D) := by rw [h, mul_one']
      _ = D := by rw [← mul_assoc', hf.left A B hA, one_mul']

theorem C18_unique_left (A D : Mat S n n) (h : D * A = identity) : f A = some D :=
  C18_unique_right hf A D (mul_comm_of_identity h)

/-- `try_inverse` is `Some` exactly when an inverse exists -/
theorem C18_isSome_iff (A : Mat S n n) : (f A).isSome ↔
    ∃ D : Mat S n n, A * D = identity ∧ D * A = identity := by
  constructor
  · intro h
    obtain ⟨B, hB⟩ := Option.isSome_iff_exists.mp h
    exact ⟨B, hf.right A B hB, hf.left A B hB⟩
  · rintro ⟨D, h, -⟩
    rw [C18_unique_right hf A D h]; rfl

theorem C18_inverse_inverse (A B : Mat S n n) (h : f A = some B) : f B = some A :=
  C18_unique_right hf B A (hf.left A B h)

theorem C18_inverse_mul (A B A' B' : Mat S n n) (hA : f A = some A') (hB : f B = some B') :
    f (A * B) = some (B' * A') := by
  apply C18_unique_right hf
  rw [mul_assoc', ← mul_assoc' B B' A', hf.right B B' hB, one_mul', hf.right A A' hA]

theorem C18_inverse_identity : f identity = some identity :=
  C18_unique_right hf _ _ (one_mul' _)

theorem C18_inverse_transpose (A B : Mat S n n) (h : f A = some B) :
    f A.transpose = some B.transpose := by
  apply C18_unique_right hf
  apply toMatrix_injective
  rw [toMatrix_mul, toMatrix_transpose, toMatrix_transpose, ← Matrix.transpose_mul, ← toMatrix_mul,
    hf.left A B h, toMatrix_identity, Matrix.transpose_one]

/-- solving a linear system -/
theorem C18_solves (A B : Mat S n n) (v w : Vec S n) (h : f A = some B) : A * v = w ↔ v = B * w := by
  have hl : ∀ x : Vec S n, B * (A * x) = x := fun x => by
    apply Vec.ext
    rw [mulVec_eq, mulVec_eq, Matrix.mulVec_mulVec, ← toMatrix_mul, hf.left A B h, toMatrix_identity,
      Matrix.one_mulVec]
  have hr : ∀ x : Vec S n, A * (B * x) = x := fun x => by
    apply Vec.ext
    rw [mulVec_eq, mulVec_eq, Matrix.mulVec_mulVec, ← toMatrix_mul, hf.right A B h, toMatrix_identity,
      Matrix.one_mulVec]
  constructor
  · rintro rfl; exact (hl v).symm
  · rintro rfl; exact hr w

end Consequences

/-! ### `inverse()` returns that matrix, or panics exactly when `try_inverse()` is `None` -/

section Inverse
variable [DecidableEq S]

theorem C18_inverse1 (A : Mat S 1 1) :
    (∀ B, A.inverse1 = .ok B ↔ A * B = identity) ∧ (A.inverse1 = .error .unwrapNone ↔ Spec.leibniz A = 0) := by
  have hf := C18_try_inverse1 (S := S)
  rw [← hf.none_iff]
  refine ⟨fun B => ⟨fun h => ?_, fun h => ?_⟩, ?_⟩
  · apply hf.right; unfold inverse1 at h; cases hA : A.tryInverse1 <;> simp_all [unwrap]
  · rw [inverse1, C18_unique_right hf A B h]; rfl
  · unfold inverse1; cases hA : A.tryInverse1 <;> simp [unwrap]

theorem C18_inverse2 (A : Mat S 2 2) :
    (∀ B, A.inverse2 = .ok B ↔ A * B = identity) ∧ (A.inverse2 = .error .unwrapNone ↔ Spec.leibniz A = 0) := by
  have hf := C18_try_inverse2 (S := S)
  rw [← hf.none_iff]
  refine ⟨fun B => ⟨fun h => ?_, fun h => ?_⟩, ?_⟩
  · apply hf.right; unfold inverse2 at h; cases hA : A.tryInverse2 <;> simp_all [unwrap]
  · rw [inverse2, C18_unique_right hf A B h]; rfl
  · unfold inverse2; cases hA : A.tryInverse2 <;> simp [unwrap]

theorem C18_inverse3 (A : Mat S 3 3) :
    (∀ B, A.inverse3 = .ok B ↔ A * B = identity) ∧ (A.inverse3 = .error .unwrapNone ↔ Spec.leibniz A = 0) := by
  have hf := C18_try_inverse3 (S := S)
  rw [← hf.none_iff]
  refine ⟨fun B => ⟨fun h => ?_, fun h => ?_⟩, ?_⟩
  · apply hf.right; unfold inverse3 at h; cases hA : A.tryInverse3 <;> simp_all [unwrap]
  · rw [inverse3, C18_unique_right hf A B h]; rfl
  · unfold inverse3; cases hA : A.tryInverse3 <;> simp [unwrap]

theorem C18_inverse4 (A : Mat S 4 4) :
    (∀ B, A.inverse4 = .ok B ↔ A * B = identity) ∧ (A.inverse4 = .error .unwrapNone ↔ Spec.leibniz A = 0) := by
  have hf := C18_try_inverse4 (S := S)
  rw [← hf.none_iff]
  refine ⟨fun B => ⟨fun h => ?_, fun h => ?_⟩, ?_⟩
  · apply hf.right; unfold inverse4 at h; cases hA : A.tryInverse4 <;> simp_all [unwrap]
  · rw [inverse4, C18_unique_right hf A B h]; rfl
  · unfold inverse4; cases hA : A.tryInverse4 <;> simp [unwrap]

end Inverse

/-- a concrete invertible matrix and a concrete singular one -/
example : (new3x3 2 0 1 0 1 0 1 0 1 : Mat ℚ 3 3).tryInverse3 = some (new3x3 1 0 (-1) 0 1 0 (-1) 0 2) :=
  C18_unique_right C18_try_inverse3 _ _ (by
    apply ext3 <;> simp [mul_data, Fin.sum_univ_three] <;> norm_num)
example : (new2x2 1 2 2 4 : Mat ℚ 2 2).inverse2 = .error .unwrapNone := by
  rw [(C18_inverse2 _).2, ← C17_det2]; simp [determinant2]; norm_num

end Cgl

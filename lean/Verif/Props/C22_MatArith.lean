import Verif.Lemmas.Matrix
import Mathlib.Algebra.Field.Basic

/-! # C22 - entrywise matrix arithmetic -/

namespace Cgl
open Mat

variable {S : Type*} {R C N : ℕ}

theorem C22_add_entry [Zero S] [Add S] (A B : Mat S R C) (c r) :
    (A + B).data c r = A.data c r + B.data c r := add_data A B c r
theorem C22_sub_entry [Zero S] [Sub S] (A B : Mat S R C) (c r) :
    (A - B).data c r = A.data c r - B.data c r := sub_data A B c r
theorem C22_neg_entry [Zero S] [Neg S] (A : Mat S R C) (c r) : (-A).data c r = -A.data c r :=
  neg_data A c r
theorem C22_mul_scalar_entry [Zero S] [Mul S] (A : Mat S R C) (k : S) (c r) :
    (A * k).data c r = A.data c r * k := mulS_data A k c r
theorem C22_scalar_mul_entry [Zero S] [Mul S] (A : Mat S R C) (k : S) (c r) :
    (k * A).data c r = k * A.data c r := smul_data A k c r
theorem C22_div_scalar_entry [Zero S] [Div S] (A : Mat S R C) (k : S) (c r) :
    (A / k).data c r = A.data c r / k := divS_data A k c r
theorem C22_rem_scalar_entry [Zero S] [Mod S] (A : Mat S R C) (k : S) (c r) :
    (A % k).data c r = A.data c r % k := remS_data A k c r
theorem C22_component_mul_entry [Zero S] [Mul S] (A B : Mat S R C) (c r) :
    (A.componentMul B).data c r = A.data c r * B.data c r := componentMul_data A B c r
theorem C22_zero_entry [Zero S] (c r) : (zero : Mat S R C).data c r = 0 := rfl

/-! in-place forms -/

theorem C22_add_assign [Zero S] [Add S] (A B : Mat S R C) : A.addAssign B = A + B := by ext; simp
theorem C22_sub_assign [Zero S] [Sub S] (A B : Mat S R C) : A.subAssign B = A - B := by ext; simp
theorem C22_mul_assign [Zero S] [Mul S] (A : Mat S R C) (k : S) : A.mulAssign k = A * k := by ext; simp
theorem C22_div_assign [Zero S] [Div S] (A : Mat S R C) (k : S) : A.divAssign k = A / k := by ext; simp
theorem C22_rem_assign [Zero S] [Mod S] (A : Mat S R C) (k : S) : A.remAssign k = A % k := by ext; simp
theorem C22_component_mul_assign [Zero S] [Mul S] (A B : Mat S R C) :
    A.componentMulAssign B = A.componentMul B := by ext; simp
theorem C22_neg_mut [Zero S] [Neg S] (A : Mat S R C) : A.negMut = -A := by ext; simp

/-! module laws -/

section Ring
variable [CommRing S] (A B D : Mat S R C) (k l : S)

theorem C22_add_comm : A + B = B + A := by ext; simp [add_comm]
theorem C22_add_assoc : A + B + D = A + (B + D) := by ext; simp [add_assoc]
theorem C22_add_zero : A + 0 = A := by ext; simp
theorem C22_add_neg : A + -A = 0 := by ext; simp
theorem C22_sub_eq : A - B = A + -B := by ext; simp [sub_eq_add_neg]
theorem C22_mul_one : A * (1 : S) = A := by ext; simp
theorem C22_mul_mul : A * k * l = A * (k * l) := by ext; simp [mul_assoc]
theorem C22_mul_add : (A + B) * k = A * k + B * k := by ext; simp [add_mul]
theorem C22_add_mul : A * (k + l) = A * k + A * l := by ext; simp [mul_add]
theorem C22_neg_eq : -A = A * (-1 : S) := by ext; simp
theorem C22_component_mul_comm : A.componentMul B = B.componentMul A := by ext; simp [mul_comm]

end Ring

theorem C22_div_eq [Field S] (A : Mat S R C) (k : S) : A / k = A * (1 / k) := by
  ext; simp [div_eq_mul_inv]

theorem C22_mul_div_cancel [Field S] (A : Mat S R C) (k : S) (hk : k ≠ 0) : A * k / k = A := by
  ext; simp [hk]

theorem C22_is_zero_iff [Zero S] [DecidableEq S] (A : Mat S R C) :
    A.isZero = true ↔ ∀ c r, A.data c r = 0 := by
  rw [isZero, forRange_and2 C true (fun _ => R) fun c r => A.data c r == 0]
  simp

theorem C22_is_zero_iff_eq [Zero S] [DecidableEq S] (A : Mat S R C) : A.isZero = true ↔ A = zero := by
  rw [C22_is_zero_iff]
  exact ⟨fun h => by ext c r; simp [h c r], fun h c r => by rw [h]; rfl⟩

/-- `is_identity` looks at the strict triangles and the diagonal, hence at every entry. -/
theorem C22_is_identity_iff [Zero S] [One S] [DecidableEq S] (A : Mat S N N) :
    A.isIdentity = true ↔ ∀ c r, A.data c r = if c = r then 1 else 0 := by
  simp only [isIdentity]
  rw [forRange_and2 N true (fun i => (i : ℕ)) fun i j =>
      A.data i (j.castLE i.2.le) == 0 && A.data (j.castLE i.2.le) i == 0,
    forRange_and N _ fun i => A.data i i == 1]
  simp only [Bool.true_and, Bool.and_eq_true, beq_iff_eq, decide_eq_true_eq]
  refine Iff.trans (and_congr (forall_lower N fun i j => A.data i j = 0 ∧ A.data j i = 0) Iff.rfl) ?_
  constructor
  · rintro ⟨h1, h2⟩ c r
    by_cases hcr : c = r
    · subst hcr; simp [h2 c]
    · rw [if_neg hcr]
      rcases lt_or_gt_of_ne hcr with h | h
      · exact (h1 r c h).2
      · exact (h1 c r h).1
  · intro h
    refine ⟨fun i j hj => ⟨?_, ?_⟩, fun i => by simp [h i i]⟩
    · rw [h, if_neg hj.ne']
    · rw [h, if_neg hj.ne]

theorem C22_is_identity_iff_eq [Zero S] [One S] [DecidableEq S] (A : Mat S N N) :
    A.isIdentity = true ↔ A = identity := by
  rw [C22_is_identity_iff]
  exact ⟨fun h => by ext c r; simp [h c r], fun h c r => by rw [h]; simp⟩

/-- one wrong off-diagonal entry is noticed -/
example : (⟨![![1, 0], ![5, 1]]⟩ : Mat ℤ 2 2).isIdentity = false := by
  rw [Bool.eq_false_iff, ne_eq, C22_is_identity_iff]
  intro h; have := h 1 0; simp at this
example : (identity : Mat ℤ 5 5).isIdentity = true := (C22_is_identity_iff_eq _).mpr rfl

end Cgl

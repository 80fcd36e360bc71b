import Verif.Lemmas.Complex

/-!
# C35 - mixed scalar/complex operators

Every mixed operator agrees with embedding the scalar, except `scalar - complex`, which keeps the
imaginary part instead of negating it.
-/

namespace Cgl
open Cx

section Ring
variable {K : Type*} [CommRing K] (z : Cx K) (s : K)

theorem C35_add_scalar : z + s = z + fromReal s := by ext <;> simp
theorem C35_scalar_add : s + z = fromReal s + z := by ext <;> simp
theorem C35_sub_scalar : z - s = z - fromReal s := by ext <;> simp
theorem C35_mul_scalar : z * s = z * fromReal s := by ext <;> simp
theorem C35_scalar_mul : s * z = fromReal s * z := by ext <;> simp
theorem C35_scale : z.scale s = z * fromReal s := by ext <;> simp [scale]
theorem C35_assign_scalar :
    z.addAssignS s = z + fromReal s ∧ z.subAssignS s = z - fromReal s ∧ z.mulAssignS s = z * fromReal s := by
  refine ⟨?_, ?_, ?_⟩ <;> ext <;> simp [addAssignS, subAssignS, mulAssignS]

/-- `scalar - complex` equals the embedded operation exactly when the imaginary part is its own negation. -/
theorem C35_scalar_sub_iff : s - z = fromReal s - z ↔ z.im + z.im = 0 := by
  rw [Cx.ext_iff]
  simp only [sSub_re, sSub_im, sub_re, sub_im, fromReal_re, fromReal_im, true_and, zero_sub]
  exact eq_neg_iff_add_eq_zero

/-- What `scalar - complex` computes for every input: `s - conj(z)`. -/
theorem C35_scalar_sub_actual : s - z = fromReal s - z.conjugate := by ext <;> simp

end Ring

section Field
variable {K : Type*} [Field K] [LinearOrder K] [IsStrictOrderedRing K] (z : Cx K) (s : K)

/-- Missing from the full property: complex numbers with non-zero imaginary part. -/
theorem C35_scalar_sub_partial : s - z = fromReal s - z ↔ z.im = 0 := by
  rw [C35_scalar_sub_iff]; constructor
  · intro h; linarith
  · intro h; rw [h]; ring

/-- The property is false of the code: `1 - i` is computed as `1 + i`. -/
theorem C35_scalar_sub_fails : ¬ ∀ (s : K) (z : Cx K), s - z = fromReal s - z := by
  intro h
  have := (C35_scalar_sub_partial (⟨0, 1⟩ : Cx K) 1).mp (h 1 _)
  exact one_ne_zero this

end Field

section Div
variable {K : Type*} [Field K] (z : Cx K) (s : K)

theorem C35_div_scalar (hs : s ≠ 0) : z / s = z / fromReal s := by
  ext <;> simp <;> field_simp

theorem C35_unscale (hs : s ≠ 0) : z.unscale s = z / fromReal s ∧ z.unscaleN s = z / fromReal s := by
  constructor <;> ext <;> simp [unscale, unscaleN] <;> field_simp

theorem C35_scalar_div : s / z = fromReal s / z := by
  ext <;> simp

theorem C35_div_assign_scalar (hs : s ≠ 0) : z.divAssignS s = z / fromReal s := C35_div_scalar z s hs

end Div

example : (2 : ℚ) - (⟨1, 3⟩ : Cx ℚ) = ⟨1, 3⟩ := by ext <;> norm_num
example : (2 : ℚ) / (⟨1, 1⟩ : Cx ℚ) = ⟨1, -1⟩ := by ext <;> norm_num

end Cgl

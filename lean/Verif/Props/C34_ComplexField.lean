import Verif.Lemmas.Complex

/-!
# C34 - complex arithmetic is the field of complex numbers

The ring laws are stated for any commutative ring of components (so also for exact integer components); the
agreement theorem identifies every operation over the reals with the complex numbers `ℂ` of Mathlib.
-/

namespace Cgl
open Cx

section Ring
variable {K : Type*} [CommRing K] (z w u : Cx K)

theorem C34_add_comm : z + w = w + z := by ext <;> simp <;> ring
theorem C34_add_assoc : z + w + u = z + (w + u) := by ext <;> simp <;> ring
theorem C34_add_zero : z + 0 = z := by ext <;> simp
theorem C34_add_neg : z + -z = 0 := by ext <;> simp
theorem C34_sub_eq : z - w = z + -w := by ext <;> simp <;> ring
theorem C34_mul_comm : z * w = w * z := by ext <;> simp <;> ring
theorem C34_mul_assoc : z * w * u = z * (w * u) := by ext <;> simp <;> ring
theorem C34_mul_one : z * 1 = z := by ext <;> simp
theorem C34_mul_add : z * (w + u) = z * w + z * u := by ext <;> simp <;> ring
/-- `i² = -1` -/
theorem C34_i_squared : (unitIm : Cx K) * unitIm = -1 := by ext <;> simp
/-- every complex number is `re + im i` -/
theorem C34_decompose : z = fromReal z.re + fromReal z.im * unitIm := by ext <;> simp

theorem C34_conj_mul : (z * w).conjugate = z.conjugate * w.conjugate := by ext <;> simp <;> ring
theorem C34_conj_add : (z + w).conjugate = z.conjugate + w.conjugate := by ext <;> simp <;> ring
theorem C34_conj_conj : z.conjugate.conjugate = z := by ext <;> simp
/-- `z conj(z) = |z|²` -/
theorem C34_mul_conj : z * z.conjugate = fromReal z.normSquared := by
  ext <;> simp [normSquared] <;> ring
theorem C34_norm_squared_mul : (z * w).normSquared = z.normSquared * w.normSquared := by
  simp [normSquared]; ring
theorem C34_squared : z.squared = z * z := rfl
theorem C34_cubed : z.cubed = z * z * z := rfl

/-- The in-place operators store the value of the binary operators. -/
theorem C34_assign : z.addAssign w = z + w ∧ z.subAssign w = z - w ∧ z.mulAssign w = z * w := by
  refine ⟨rfl, rfl, ?_⟩
  ext <;> simp [mulAssign, add_comm]

end Ring

theorem C34_div_assign {K : Type*} [Field K] (z w : Cx K) : z.divAssign w = z / w := by
  ext <;> simp [divAssign, normSquared]

section Field
variable {K : Type*} [Field K] [LinearOrder K] [IsStrictOrderedRing K]

/-- Division inverts multiplication for every non-zero divisor. -/
theorem C34_div_mul_cancel (z w : Cx K) (hw : w ≠ 0) : z / w * w = z := by
  have h : w.re ^ 2 + w.im ^ 2 ≠ 0 := by
    simpa only [normSquared, sq] using normSquared_eq_zero.not.mpr hw
  ext
  · simp; field_simp; ring
  · simp; field_simp; ring

theorem C34_mul_div_cancel (z w : Cx K) (hw : w ≠ 0) : z * w / w = z := by
  have h : w.re ^ 2 + w.im ^ 2 ≠ 0 := by
    simpa only [normSquared, sq] using normSquared_eq_zero.not.mpr hw
  ext
  · simp; field_simp; ring
  · simp; field_simp; ring

/-- `try_inverse` is `None` exactly for zero. -/
theorem C34_try_inverse_none_iff (z : Cx K) : z.tryInverse = none ↔ z = 0 := by
  unfold tryInverse; simp only [beq_iff_eq]; split_ifs with h
  · simp [normSquared_eq_zero.mp h]
  · simpa using fun h' => h (normSquared_eq_zero.mpr h')

/-- ... and otherwise returns the multiplicative inverse, which is unique. -/
theorem C34_try_inverse_some_iff (z w : Cx K) : z.tryInverse = some w ↔ z * w = 1 := by
  unfold tryInverse; simp only [beq_iff_eq]
  by_cases h : z.normSquared = 0
  · rw [if_pos h, normSquared_eq_zero.mp h]
    simp [Cx.ext_iff]
  · rw [if_neg h]
    have h' : z.re * z.re + z.im * z.im ≠ 0 := h
    have h2 : z.re ^ 2 + z.im ^ 2 ≠ 0 := by simpa only [sq] using h'
    simp only [Option.some.injEq, Cx.ext_iff, new_re, new_im, mul_re, mul_im, one_re, one_im, normSquared]
    constructor
    · rintro ⟨h1, h3⟩
      rw [← h1, ← h3]; constructor <;> field_simp <;> ring
    · rintro ⟨h1, h2⟩
      constructor <;> rw [div_eq_iff h']
      · linear_combination (-z.re) * h1 - z.im * h2
      · linear_combination z.im * h1 - z.re * h2

/-- `inverse` panics exactly for zero. -/
theorem C34_inverse_panics_iff (z : Cx K) : (∃ p, z.inverse = .error p) ↔ z = 0 := by
  rw [← C34_try_inverse_none_iff]
  unfold inverse
  cases h : z.tryInverse <;> simp [unwrap]

theorem C34_inverse_ok_iff (z w : Cx K) : z.inverse = .ok w ↔ z * w = 1 := by
  rw [← C34_try_inverse_some_iff]
  unfold inverse
  cases h : z.tryInverse <;> simp [unwrap]

/-- `z / w` is `z` times the inverse of `w`. -/
theorem C34_div_eq_mul_inverse (z w v : Cx K) (h : w.tryInverse = some v) : z / w = z * v := by
  have hw := (C34_try_inverse_some_iff w v).mp h
  have h0 : w ≠ 0 := by rintro rfl; simp [tryInverse, normSquared] at h
  have h1 := C34_mul_div_cancel (z * v) w h0
  rwa [C34_mul_assoc, C34_mul_comm v w, hw, C34_mul_one] at h1

end Field

/-- The operations are those of `ℂ` (`toC z = re + i im`). -/
theorem C34_agrees (z w : Cx ℝ) :
    (z + w).toC = z.toC + w.toC ∧ (z - w).toC = z.toC - w.toC ∧ (-z).toC = -z.toC ∧
    (z * w).toC = z.toC * w.toC ∧ (z / w).toC = z.toC / w.toC ∧
    z.conjugate.toC = (starRingEnd ℂ) z.toC ∧ z.norm = ‖z.toC‖ ∧ z.normSquared = ‖z.toC‖ ^ 2 := by
  refine ⟨rfl, rfl, rfl, rfl, toC_div z w, rfl, norm_eq z, ?_⟩
  rw [← normSq_toC, Complex.normSq_eq_norm_sq]

theorem C34_norm_mul (z w : Cx ℝ) : (z * w).norm = z.norm * w.norm := by
  simp [norm_eq]

theorem C34_norm_triangle (z w : Cx ℝ) : (z + w).norm ≤ z.norm + w.norm := by
  simpa [norm_eq] using norm_add_le z.toC w.toC

theorem C34_norm_zero_iff (z : Cx ℝ) : z.norm = 0 ↔ z = 0 := Cx.norm_eq_zero

/-- `l1_norm` is a norm between the modulus and √2 times it. -/
theorem C34_l1_norm (z : Cx ℝ) : z.norm ≤ z.l1Norm ∧ z.l1Norm ≤ Real.sqrt 2 * z.norm := by
  constructor
  · rw [norm_eq]; exact Complex.norm_le_abs_re_add_abs_im z.toC
  · rw [norm_def, ← Real.sqrt_mul (by norm_num)]
    apply Real.le_sqrt_of_sq_le
    have h1 := sq_abs z.re
    have h2 := sq_abs z.im
    change (|z.re| + |z.im|) ^ 2 ≤ 2 * (z.re * z.re + z.im * z.im)
    nlinarith [sq_nonneg (|z.re| - |z.im|)]

theorem C34_predicates (z : Cx ℝ) :
    (z.isZero = true ↔ z = 0) ∧ (z.isIdentity = true ↔ z = 1) ∧
    (z.isReal = true ↔ ∃ s, z = fromReal s) ∧ (z.isImaginary = true ↔ ∃ s, z = fromImaginary s) := by
  refine ⟨by simp [isZero, Cx.ext_iff], by simp [isIdentity, Cx.ext_iff], ?_, ?_⟩
  · simp only [isReal, beq_iff_eq]
    exact ⟨fun h => ⟨z.re, by ext <;> simp [h]⟩, by rintro ⟨s, rfl⟩; rfl⟩
  · simp only [isImaginary, beq_iff_eq]
    exact ⟨fun h => ⟨z.im, by ext <;> simp [h, fromImaginary]⟩, by rintro ⟨s, rfl⟩; rfl⟩

example : (⟨1, 2⟩ : Cx ℚ) * ⟨3, -1⟩ = ⟨5, 5⟩ := by ext <;> norm_num
example : (⟨1, 2⟩ : Cx ℚ).tryInverse = some ⟨1/5, -2/5⟩ := by
  rw [C34_try_inverse_some_iff]; ext <;> norm_num
example : (⟨1, 2⟩ : Cx ℚ) ≠ 0 := by rw [Cx.ne_zero_iff]; norm_num
example : (0 : Cx ℚ).inverse = .error .unwrapNone := by simp [Cx.inverse, Cx.tryInverse, Cx.normSquared, unwrap]

end Cgl

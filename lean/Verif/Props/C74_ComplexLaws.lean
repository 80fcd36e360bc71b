import Verif.Props.C34_ComplexField
import Verif.Props.C35_MixedComplex
import Verif.Props.C36_ComplexPolarExp
import Verif.Props.C38_ComplexTrig

/-!
# C74 - the laws the project's property tests sample for complex numbers

crates/cglinalg_core/tests/spec_complex.rs states 99 laws as generic functions `prop_*` and evaluates each on
random samples, with tolerances. Here every one of them is a theorem about all complex numbers: over every
commutative ring of components where the test asks for `SimdScalar`, over every ordered one where it needs an
order or an absolute value, over the exact reals where it asks for `SimdScalarFloat`. `relative_eq!` is read as
`=`, and `> tolerance` as `> 0`. The lines of the test file are cited. Where a sampled law is false of some
argument the samples avoid, the theorem names the exact condition and a companion `_fails` gives the witness.
The laws comparing the by-reference operator impls with the by-value ones (spec_complex.rs 423-436, 519-532) are
not repeated: the model has one operator for both.
-/

namespace Cgl
open Cx

/-! ### algebra -/

section Ring
variable {K : Type*} [CommRing K] (z z1 z2 z3 : Cx K) (a b c : K)

/-- spec_complex.rs 306-405, 444-501, 557-568: zero, one, addition and subtraction -/
theorem C74_additive_and_units :
    0 * z = 0 ∧ z * 0 = 0 ∧ z + 0 = z ∧ 0 + z = z ∧ 1 * z = z ∧ z * 1 = z ∧ z1 + z2 = z2 + z1 ∧
    z1 + z2 + z3 = z1 + (z2 + z3) ∧ z - 0 = z ∧ z - z = 0 := by
  refine ⟨?_, ?_, ?_, ?_, ?_, ?_, ?_, ?_, ?_, ?_⟩ <;> ext <;> simp <;> ring

/-- spec_complex.rs 540-549, 615-676, 684-776: multiplication by scalars and by complex numbers -/
theorem C74_multiplicative :
    fromReal c * z = z * fromReal c ∧
    fromReal a * (fromReal b * z) = fromReal a * fromReal b * z ∧
    z * (fromReal a * fromReal b) = z * fromReal a * fromReal b ∧
    z * (a * b) = z * a * b ∧
    z1 * (z2 * z3) = z1 * z2 * z3 ∧ z1 * z2 = z2 * z1 ∧
    fromReal a * (z1 + z2) = fromReal a * z1 + fromReal a * z2 ∧
    (z1 + z2) * fromReal a = z1 * fromReal a + z2 * fromReal a ∧
    (fromReal a + fromReal b) * z = fromReal a * z + fromReal b * z ∧
    z * (fromReal a + fromReal b) = z * fromReal a + z * fromReal b ∧
    (z1 + z2) * a = z1 * a + z2 * a ∧
    z * (a + b) = z * a + z * b ∧
    (z1 + z2) * z3 = z1 * z3 + z2 * z3 ∧
    z1 * (z2 + z3) = z1 * z2 + z1 * z3 := by
  refine ⟨?_, ?_, ?_, ?_, ?_, ?_, ?_, ?_, ?_, ?_, ?_, ?_, ?_, ?_⟩ <;> ext <;> simp <;> ring

/-- spec_complex.rs 784-821: conjugation -/
theorem C74_conjugation :
    z.conjugate.conjugate = z ∧ (z1 + z2).conjugate = z1.conjugate + z2.conjugate ∧
    (z1 * z2).conjugate = z2.conjugate * z1.conjugate := by
  refine ⟨?_, ?_, ?_⟩ <;> ext <;> simp <;> ring

end Ring

/-- spec_complex.rs 577-600: the multiplicative inverse, whenever `try_inverse` returns one, and it returns one
for every non-zero number -/
theorem C74_multiplicative_inverse {K : Type*} [Field K] [LinearOrder K] [IsStrictOrderedRing K] (z : Cx K)
    (hz : z ≠ 0) :
    ∃ w, z.tryInverse = some w ∧ z * w = 1 ∧ w * z = 1 := by
  have hn : z.normSquared ≠ 0 := normSquared_eq_zero.not.mpr hz
  refine ⟨new (z.re / z.normSquared) (-z.im / z.normSquared), by simp [tryInverse, hn], ?_, ?_⟩
  all_goals
    simp only [normSquared] at hn ⊢
    ext <;> simp only [mul_re, mul_im, new_re, new_im, one_re, one_im] <;>
      grind

example : ((⟨3, 4⟩ : Cx ℚ)).tryInverse = some ⟨3 / 25, -4 / 25⟩ := by
  simp [tryInverse, normSquared, new]; norm_num

/-! ### norms -/

section Ordered
variable {K : Type*} [CommRing K] [LinearOrder K] [IsStrictOrderedRing K] (z z1 z2 : Cx K) (c : K)

/-- spec_complex.rs 829-838, 914-943: the squared modulus -/
theorem C74_modulus_squared :
    0 ≤ z.normSquared ∧ (z ≠ 0 → z.normSquared ≠ 0) ∧ (z ≠ 0 → 0 < z.normSquared) ∧
    (z * c).normSquared = z.normSquared * |c| * |c| := by
  have h0 : 0 ≤ z.normSquared := by
    unfold normSquared; exact add_nonneg (mul_self_nonneg _) (mul_self_nonneg _)
  have h1 : z ≠ 0 → z.normSquared ≠ 0 := by
    intro hz h
    apply hz
    have := (add_eq_zero_iff_of_nonneg (mul_self_nonneg z.re) (mul_self_nonneg z.im)).mp h
    ext
    · exact mul_self_eq_zero.mp this.1
    · exact mul_self_eq_zero.mp this.2
  refine ⟨h0, h1, fun hz => lt_of_le_of_ne h0 (h1 hz).symm, ?_⟩
  rw [mul_assoc, abs_mul_abs_self]
  simp [normSquared]; ring

variable [SAbs K] (habs : ∀ x : K, sabs x = |x|)
include habs

/-- spec_complex.rs 1053-1156: the `L1` norm is a norm -/
theorem C74_l1_norm :
    0 ≤ z.l1Norm ∧ (z * c).l1Norm = z.l1Norm * |c| ∧ (z1 + z2).l1Norm ≤ z1.l1Norm + z2.l1Norm ∧
    (z ≠ 0 → z.l1Norm ≠ 0) ∧ (z ≠ 0 → 0 < z.l1Norm) := by
  have h0 : 0 ≤ z.l1Norm := by simp only [l1Norm, habs]; positivity
  have h1 : z ≠ 0 → z.l1Norm ≠ 0 := by
    intro hz h
    simp only [l1Norm, habs] at h
    have := (add_eq_zero_iff_of_nonneg (abs_nonneg z.re) (abs_nonneg z.im)).mp h
    apply hz; ext
    · exact abs_eq_zero.mp this.1
    · exact abs_eq_zero.mp this.2
  refine ⟨h0, ?_, ?_, h1, fun hz => lt_of_le_of_ne h0 (h1 hz).symm⟩
  · simp only [l1Norm, habs, mulS_re, mulS_im, abs_mul]; ring
  · simp only [l1Norm, habs, add_re, add_im]
    have a := abs_add_le z1.re z2.re
    have b := abs_add_le z1.im z2.im
    linarith

end Ordered

/-- spec_complex.rs 951-1000: the modulus -/
theorem C74_modulus (z : Cx ℝ) : 0 ≤ z.norm ∧ (z ≠ 0 → z.norm ≠ 0) :=
  ⟨Cx.norm_nonneg z, fun h => Cx.norm_eq_zero.not.mpr h⟩

/-! ### exponential and logarithm -/

/-- spec_complex.rs 1165-1229 -/
theorem C74_exp (z z1 z2 : Cx ℝ) :
    (z1 + z2).exp = z1.exp * z2.exp ∧ z.exp ≠ 0 ∧ (-z).exp * z.exp = 1 ∧ z.exp * (-z).exp = 1 := by
  refine ⟨C36_exp_add z1 z2, C36_exp_ne_zero z, ?_, ?_⟩
  all_goals
    rw [← C36_exp_add, ← C36_exp_zero]; congr 1; ext <;> simp

private theorem exists_int_of_exp_eq {u v : Cx ℝ} (h : u.exp = v.exp) :
    ∃ n : ℤ, u = v + new 0 (2 * Real.pi * n) := by
  have := congrArg toC h
  rw [toC_exp, toC_exp, Complex.exp_eq_exp_iff_exists_int] at this
  obtain ⟨n, hn⟩ := this
  refine ⟨n, ?_⟩
  ext
  · have := congrArg Complex.re hn; simpa using this
  · have := congrArg Complex.im hn
    simp at this; simp [this]; ring

/-- spec_complex.rs 1273-1316, 1352-1368: the logarithm of a product is the sum of the logarithms up to a whole
multiple of `2πi`; `ln (exp z)` is `z` up to such a multiple; the real part is the logarithm of the modulus. -/
theorem C74_ln (z z1 z2 : Cx ℝ) :
    (z1 ≠ 0 → z2 ≠ 0 → ∃ n : ℤ, (z1 * z2).ln = z1.ln + z2.ln + new 0 (2 * Real.pi * n)) ∧
    (∃ n : ℤ, z.exp.ln = z + new 0 (2 * Real.pi * n)) ∧
    z.ln.re = Real.log z.norm := by
  refine ⟨fun h1 h2 => ?_, ?_, rfl⟩
  · apply exists_int_of_exp_eq
    have h3 : z1 * z2 ≠ 0 := by
      rw [← toC_ne_zero] at *; rw [toC_mul]; exact mul_ne_zero h1 h2
    rw [C36_exp_add, C36_exp_ln _ h1, C36_exp_ln _ h2, C36_exp_ln _ h3]
  · apply exists_int_of_exp_eq
    rw [C36_exp_ln _ (C36_exp_ne_zero z)]

/-- spec_complex.rs 1325-1340: `exp (ln z) = z`, exactly for the non-zero numbers ... -/
theorem C74_exp_ln_identity_partial (z : Cx ℝ) : z.ln.exp = z ↔ z ≠ 0 :=
  ⟨fun h h0 => C36_exp_ne_zero _ (h.trans h0), C36_exp_ln z⟩

/-- ... so not for all. (In the exact reals `ln 0` is `0`; in floating point it is `-∞`, whose exponential is
the zero that this theorem's model cannot produce.) -/
theorem C74_exp_ln_identity_fails : ¬ ∀ z : Cx ℝ, z.ln.exp = z :=
  fun h => (C74_exp_ln_identity_partial 0).mp (h 0) rfl

/-! ### argument -/

private theorem angle_int {a b : ℝ} (h : (a : Real.Angle) = b) : ∃ n : ℤ, a = b + 2 * Real.pi * n := by
  rw [Real.Angle.angle_eq_iff_two_pi_dvd_sub] at h
  obtain ⟨n, hn⟩ := h
  exact ⟨n, by linarith⟩

/-- spec_complex.rs 1416-1492: arguments add under multiplication and subtract under division, up to a whole
number of turns, and lie in `[-π, π]`. -/
theorem C74_arg (z z1 z2 : Cx ℝ) :
    (z1 ≠ 0 → z2 ≠ 0 → ∃ n : ℤ, (z1 * z2).arg = z1.arg + z2.arg + 2 * Real.pi * n) ∧
    (z1 ≠ 0 → z2 ≠ 0 → ∃ n : ℤ, (z1 / z2).arg = z1.arg - z2.arg + 2 * Real.pi * n) ∧
    -Real.pi ≤ z.arg ∧ z.arg ≤ Real.pi := by
  refine ⟨fun h1 h2 => ?_, fun h1 h2 => ?_, (Complex.neg_pi_lt_arg _).le, Complex.arg_le_pi _⟩
  all_goals
    rw [← toC_ne_zero] at h1 h2
    apply angle_int
    simp only [arg_eq, toC_mul, toC_div]
  · rw [Complex.arg_mul_coe_angle h1 h2]; push_cast; rfl
  · rw [Complex.arg_div_coe_angle h1 h2]; push_cast; rfl

/-- spec_complex.rs 1382-1406: adding whole turns to the angle of the polar form does not change the argument -/
theorem C74_arg_congruent (z : Cx ℝ) (k : ℤ) :
    (fromPolarDecomposition z.norm ⟨z.arg + 2 * Real.pi * k⟩).arg = z.arg := by
  have : fromPolarDecomposition z.norm ⟨z.arg + 2 * Real.pi * k⟩ = z := by
    have h := (C36_polar_round_trip z).1
    simp only [polarDecomposition] at h
    have e : z.arg + 2 * Real.pi * k = z.arg + k * (2 * Real.pi) := by ring
    conv_rhs => rw [← h]
    ext
    · simp only [fromPolarDecomposition, new_re, fcos_real, e, Real.cos_add_int_mul_two_pi]
    · simp only [fromPolarDecomposition, new_im, fsin_real, e, Real.sin_add_int_mul_two_pi]
  rw [this]

/-! ### roots -/

/-- spec_complex.rs 1501-1582: square roots -/
theorem C74_square_root (z z1 z2 : Cx ℝ) :
    z.sqrt * z.sqrt = z ∧
    ((-z).sqrt * (-z).sqrt).polarDecomposition = (-z).polarDecomposition ∧
    z.conjugate.sqrt * z.conjugate.sqrt = z.conjugate ∧
    (z1 * z2).sqrt.norm = z1.sqrt.norm * z2.sqrt.norm := by
  refine ⟨C36_sqrt_squared z, by rw [C36_sqrt_squared], C36_sqrt_squared _, ?_⟩
  have key : ∀ w : Cx ℝ, w.sqrt.norm = Real.sqrt w.norm := by
    intro w
    have h := congrArg Cx.norm (C36_sqrt_squared w)
    rw [C34_norm_mul] at h
    rw [← h, Real.sqrt_mul_self (Cx.norm_nonneg _)]
  rw [key, key, key, C34_norm_mul, Real.sqrt_mul (Cx.norm_nonneg _)]

/-- spec_complex.rs 1591-1601: the principal square root lies in the right half plane -/
theorem C74_square_root_arg_range (z : Cx ℝ) :
    -(Real.pi / 2) ≤ z.sqrt.arg ∧ z.sqrt.arg ≤ Real.pi / 2 :=
  arg_of_re_nonneg _ (C36_sqrt_re_nonneg z)

/-- spec_complex.rs 1609-1620 -/
theorem C74_cubed_root (z : Cx ℝ) : z.cbrt.cubed = z := C36_cbrt_cubed z

/-! ### circular and hyperbolic functions -/

/-- spec_complex.rs 1629-1646, 1704-1719: on real arguments -/
theorem C74_trig_real (z : Cx ℝ) :
    (fromReal z.re).cos.re = Real.cos z.re ∧ (fromReal z.re).sin.re = Real.sin z.re := by
  constructor
  · have := congrArg Complex.re (C38_cos (fromReal z.re))
    rw [toC_fromReal, ← Complex.ofReal_cos, Complex.ofReal_re] at this
    exact this
  · have := congrArg Complex.re (C38_sin (fromReal z.re))
    rw [toC_fromReal, ← Complex.ofReal_sin, Complex.ofReal_re] at this
    exact this

private theorem tan_real_arg (x : ℝ) : (fromReal x).tan.re = Real.tan x := by
  simp only [Cx.tan, Cx.tanh, fromReal, new_re, new_im, neg_zero, isInfinite_real, isNan_real,
    Bool.false_and, Bool.false_eq_true, if_false, add_zero, fcosh_real, fsinh_real, fcos_real, fsin_real,
    Real.cosh_zero, Real.sinh_zero]
  rw [← two_mul, Real.cos_two_mul, Real.sin_two_mul, Real.tan_eq_sin_div_cos]
  by_cases h : Real.cos x = 0
  · simp [h]
  · field_simp; ring

/-- spec_complex.rs 1778-1794: the tangent of a number whose imaginary part is zero is the tangent of its real
part. The documentation of the test states the condition `im(z) == 0`; without it the law fails. -/
theorem C74_tan_real (z : Cx ℝ) (h : z.im = 0) : z.tan.re = Real.tan z.re ∧ z.tan.im = 0 := by
  have e : z = fromReal z.re := by ext <;> simp [h]
  rw [e]
  refine ⟨tan_real_arg z.re, ?_⟩
  simp [Cx.tan, Cx.tanh, fromReal]

example : (new 0 0 : Cx ℝ).tan.re = 0 := by
  have := (C74_tan_real (new 0 0) rfl).1; simpa using this

theorem C74_tan_real_fails : ¬ ∀ z : Cx ℝ, z.tan.re = Real.tan z.re := by
  intro h
  have h1 := h ⟨Real.pi / 4, 1⟩
  simp only [Cx.tan, Cx.tanh, new_re, new_im, isInfinite_real, isNan_real,
    Bool.false_and, Bool.false_eq_true, if_false, fcosh_real, fsinh_real, fcos_real, fsin_real] at h1
  rw [Real.tan_pi_div_four] at h1
  have e1 : Real.pi / 4 + Real.pi / 4 = Real.pi / 2 := by ring
  rw [e1, Real.sin_pi_div_two, Real.cos_pi_div_two, add_zero] at h1
  have h2 : Real.cosh (-1 + -1) = 1 := by
    have : Real.cosh (-1 + -1) ≠ 0 := (Real.cosh_pos _).ne'
    field_simp at h1; linarith
  have h3 : 1 < Real.cosh (-1 + -1) := Real.one_lt_cosh.mpr (by norm_num)
  linarith

/-- spec_complex.rs 1655-1695, 1728-1769, 2138-2200: parity, conjugation and imaginary arguments -/
theorem C74_parity (z : Cx ℝ) :
    (-z).cos = z.cos ∧ (-z).sin = -z.sin ∧ (-z).cosh = z.cosh ∧ (-z).sinh = -z.sinh ∧
    z.conjugate.cosh = z.cosh.conjugate ∧ z.conjugate.sinh = z.sinh.conjugate ∧
    (fromImaginary z.im).cos = (fromReal z.im).cosh ∧
    (unitIm * fromReal z.im).sin = unitIm * fromReal (Real.sinh z.im) := by
  refine ⟨?_, ?_, ?_, ?_, ?_, ?_, ?_, ?_⟩ <;> apply toC_injective
  · simp [C38_cos]
  · simp [C38_sin]
  · simp [C38_cosh]
  · simp [C38_sinh]
  · simp [C38_cosh, Complex.cosh_conj]
  · simp [C38_sinh, Complex.sinh_conj]
  · rw [C38_cos, C38_cosh, ← Complex.cos_mul_I]; congr 1
    apply Complex.ext <;> simp [fromImaginary, toC_new]
  · rw [C38_sin, toC_mul, toC_unitIm, toC_fromReal, mul_comm, Complex.sin_mul_I]
    simp [mul_comm]

/-- spec_complex.rs 1803-1845, 2208-2238: the same for the tangents (at the poles, where the exact quotient has
the denominator zero, the law is about the value `0` the model gives there) -/
theorem C74_tangent_parity (z : Cx ℝ) :
    (-z).tan = -z.tan ∧ (-z).tanh = -z.tanh ∧ z.conjugate.tanh = z.tanh.conjugate ∧
    (unitIm * fromReal z.im).tan = unitIm * fromReal (Real.tanh z.im) := by
  have d : ∀ x : ℝ, -x + -x = -(x + x) := fun x => by ring
  refine ⟨?_, ?_, ?_, ?_⟩
  · ext <;> simp [Cx.tan, Cx.tanh, d, neg_div, -neg_add_rev]
  · ext <;> simp [Cx.tanh, d, neg_div, -neg_add_rev]
  · ext <;> simp [Cx.tanh, d, neg_div, -neg_add_rev]
  · have hc : Real.cosh z.im ≠ 0 := (Real.cosh_pos _).ne'
    ext
    · simp [Cx.tan, Cx.tanh]
    · simp [Cx.tan, Cx.tanh]
      rw [← neg_add, Real.sinh_neg, Real.cosh_neg, ← two_mul, Real.sinh_two_mul, Real.cosh_two_mul,
        Real.tanh_eq_sinh_div_cosh]
      have := Real.cosh_sq z.im
      field_simp
      linear_combination (Real.sinh z.im) * this

/-- spec_complex.rs 1853-1895, 1925-1953, 2246-2282, 2312-2340: double angles and sums -/
theorem C74_addition (z z1 z2 : Cx ℝ) :
    ((1 + 1) * z).cos = z.cos.squared - z.sin.squared ∧
    ((1 + 1) * z).sin = (1 + 1) * z.sin * z.cos ∧
    (z1 + z2).cos = z1.cos * z2.cos - z1.sin * z2.sin ∧
    (z1 + z2).sin = z1.sin * z2.cos + z1.cos * z2.sin ∧
    ((1 + 1) * z).cosh = z.cosh.squared + z.sinh.squared ∧
    ((1 + 1) * z).sinh = (1 + 1) * z.sinh * z.cosh ∧
    (z1 + z2).cosh = z1.cosh * z2.cosh + z1.sinh * z2.sinh ∧
    (z1 + z2).sinh = z1.sinh * z2.cosh + z1.cosh * z2.sinh := by
  refine ⟨?_, ?_, ?_, ?_, ?_, ?_, ?_, ?_⟩ <;> apply toC_injective <;>
    simp only [C34_squared, C38_cos, C38_sin, C38_cosh, C38_sinh, toC_mul, toC_add, toC_sub, toC_one]
  · rw [one_add_one_eq_two, Complex.cos_two_mul']; ring
  · rw [one_add_one_eq_two, Complex.sin_two_mul]
  · rw [Complex.cos_add]
  · rw [Complex.sin_add]
  · rw [one_add_one_eq_two, Complex.cosh_two_mul]; ring
  · rw [one_add_one_eq_two, Complex.sinh_two_mul]
  · rw [Complex.cosh_add]
  · rw [Complex.sinh_add]

private theorem tan_mul_cos {z : Cx ℝ} (h : z.cos ≠ 0) : z.tan.toC * z.cos.toC = z.sin.toC := by
  rw [((C38_identities z).2.2.1 h), toC_div, div_mul_cancel₀ _ (toC_ne_zero.mpr h)]

private theorem tanh_mul_cosh {z : Cx ℝ} (h : z.cosh ≠ 0) : z.tanh.toC * z.cosh.toC = z.sinh.toC := by
  rw [((C38_identities z).2.2.2 h), toC_div, div_mul_cancel₀ _ (toC_ne_zero.mpr h)]

/-- spec_complex.rs 1961-1991, 2348-2378: sums and differences, away from the poles of the three tangents -/
theorem C74_tangent_addition (z1 z2 : Cx ℝ) :
    (z1.cos ≠ 0 → z2.cos ≠ 0 → (z1 + z2).cos ≠ 0 →
      (z1 + z2).tan * (1 - z1.tan * z2.tan) = z1.tan + z2.tan) ∧
    (z1.cos ≠ 0 → z2.cos ≠ 0 → (z1 - z2).cos ≠ 0 →
      (z1 - z2).tan * (1 + z1.tan * z2.tan) = z1.tan - z2.tan) ∧
    (z1.cosh ≠ 0 → z2.cosh ≠ 0 → (z1 + z2).cosh ≠ 0 →
      (z1 + z2).tanh * (1 + z1.tanh * z2.tanh) = z1.tanh + z2.tanh) ∧
    (z1.cosh ≠ 0 → z2.cosh ≠ 0 → (z1 - z2).cosh ≠ 0 →
      (z1 - z2).tanh * (1 - z1.tanh * z2.tanh) = z1.tanh - z2.tanh) := by
  refine ⟨?_, ?_, ?_, ?_⟩ <;> intro h1 h2 h3 <;> apply toC_injective <;>
    have n1 := toC_ne_zero.mpr h1 <;> have n2 := toC_ne_zero.mpr h2 <;>
    simp only [toC_mul, toC_add, toC_sub, toC_one] <;>
    apply mul_right_cancel₀ n1 <;> apply mul_right_cancel₀ n2
  · have t1 := tan_mul_cos h1
    have t2 := tan_mul_cos h2
    have t3 := tan_mul_cos h3
    have c3 : (z1 + z2).cos.toC = z1.cos.toC * z2.cos.toC - z1.sin.toC * z2.sin.toC := by
      rw [(C74_addition z1 z1 z2).2.2.1]; simp
    have s3 : (z1 + z2).sin.toC = z1.sin.toC * z2.cos.toC + z1.cos.toC * z2.sin.toC := by
      rw [(C74_addition z1 z1 z2).2.2.2.1]; simp
    grind
  · have t1 := tan_mul_cos h1
    have t2 := tan_mul_cos h2
    have t3 := tan_mul_cos h3
    have c3 : (z1 - z2).cos.toC = z1.cos.toC * z2.cos.toC + z1.sin.toC * z2.sin.toC := by
      simp only [C38_cos, C38_sin, toC_sub, Complex.cos_sub]
    have s3 : (z1 - z2).sin.toC = z1.sin.toC * z2.cos.toC - z1.cos.toC * z2.sin.toC := by
      simp only [C38_cos, C38_sin, toC_sub, Complex.sin_sub]
    grind
  · have t1 := tanh_mul_cosh h1
    have t2 := tanh_mul_cosh h2
    have t3 := tanh_mul_cosh h3
    have c3 : (z1 + z2).cosh.toC = z1.cosh.toC * z2.cosh.toC + z1.sinh.toC * z2.sinh.toC := by
      simp only [C38_cosh, C38_sinh, toC_add, Complex.cosh_add]
    have s3 : (z1 + z2).sinh.toC = z1.sinh.toC * z2.cosh.toC + z1.cosh.toC * z2.sinh.toC := by
      simp only [C38_cosh, C38_sinh, toC_add, Complex.sinh_add]
    grind
  · have t1 := tanh_mul_cosh h1
    have t2 := tanh_mul_cosh h2
    have t3 := tanh_mul_cosh h3
    have c3 : (z1 - z2).cosh.toC = z1.cosh.toC * z2.cosh.toC - z1.sinh.toC * z2.sinh.toC := by
      simp only [C38_cosh, C38_sinh, toC_sub, Complex.cosh_sub]
    have s3 : (z1 - z2).sinh.toC = z1.sinh.toC * z2.cosh.toC - z1.cosh.toC * z2.sinh.toC := by
      simp only [C38_cosh, C38_sinh, toC_sub, Complex.sinh_sub]
    grind

private theorem two_mul' (z : Cx ℝ) : (1 + 1) * z = z + z := by ext <;> simp <;> ring

/-- spec_complex.rs 1903-1917, 2290-2304: double angles of the tangents, away from their poles -/
theorem C74_tangent_double (z : Cx ℝ) :
    (z.cos ≠ 0 → ((1 + 1) * z).cos ≠ 0 →
      ((1 + 1) * z).tan * (1 - z.tan.squared) = (1 + 1) * z.tan) ∧
    (z.cosh ≠ 0 → ((1 + 1) * z).cosh ≠ 0 →
      ((1 + 1) * z).tanh * (1 + z.tanh.squared) = (1 + 1) * z.tanh) := by
  simp only [two_mul', C34_squared]
  exact ⟨fun h1 h2 => (C74_tangent_addition z z).1 h1 h1 h2,
    fun h1 h2 => (C74_tangent_addition z z).2.2.1 h1 h1 h2⟩

example : (0 : Cx ℝ).cos ≠ 0 ∧ (0 : Cx ℝ).cosh ≠ 0 := by
  constructor <;> rw [← toC_ne_zero] <;> simp [C38_cos, C38_cosh]

/-! ### inverse functions -/

/-- spec_complex.rs 2068-2107, 2388-2427: right inverses, at every complex number -/
theorem C74_inverse_functions (z : Cx ℝ) :
    z.acos.cos = z ∧ z.asin.sin = z ∧ z.acosh.cosh = z ∧ z.asinh.sinh = z :=
  ⟨C38_cos_acos z, C38_sin_asin z, C38_cosh_acosh z, C38_sinh_asinh z⟩

/-- spec_complex.rs 2115-2130, 2436-2451: right inverses of the tangents, away from their singularities -/
theorem C74_inverse_tangents (z : Cx ℝ) :
    (z ≠ unitIm → z ≠ -unitIm → z.atan.tan = z) ∧ (z ≠ 1 → z ≠ -1 → z.atanh.tanh = z) :=
  ⟨C38_tan_atan z, C38_tanh_atanh z⟩

/-! ### inverse functions of the conjugate -/

/-- the square root of the conjugate is the conjugate of the square root off the negative real axis -/
private theorem sqrt_conj (z : Cx ℝ) (h : z.im ≠ 0 ∨ 0 ≤ z.re) : z.conjugate.sqrt = z.sqrt.conjugate := by
  symm
  have hs := C36_sqrt_squared z
  have hr := C36_sqrt_re_nonneg z
  apply C36_sqrt_unique
  · rw [← C34_conj_mul, hs]
  · rcases hr.eq_or_lt with h0 | h0
    · right
      have h1 := congrArg re hs
      have h2 := congrArg im hs
      simp only [mul_re, mul_im, ← h0, zero_mul, mul_zero, zero_sub, add_zero] at h1 h2
      have him : z.sqrt.im = 0 := by
        rcases h with h | h
        · exact absurd h2.symm h
        · have : z.sqrt.im * z.sqrt.im = 0 := le_antisymm (by linarith) (mul_self_nonneg _)
          exact mul_self_eq_zero.mp this
      simp [← h0, him]
    · left; simpa using h0

/-- the logarithm of the conjugate is the conjugate of the logarithm off the negative real axis -/
private theorem ln_conj (z : Cx ℝ) (h : z.im ≠ 0 ∨ 0 ≤ z.re) : z.conjugate.ln = z.ln.conjugate := by
  apply toC_injective
  rw [toC_ln, toC_conjugate, toC_conjugate, toC_ln]
  apply Complex.log_conj
  intro ha
  rw [Complex.arg_eq_pi_iff] at ha
  rcases h with h | h
  · exact h ha.2
  · have := ha.1; simp at this; linarith

private theorem ln_inv (u v : Cx ℝ) (huv : u * v = 1) (h : u.im ≠ 0 ∨ 0 ≤ u.re) : v.ln = -u.ln := by
  apply toC_injective
  have hm := congrArg toC huv
  rw [toC_mul, toC_one] at hm
  have : v.toC = u.toC⁻¹ := eq_inv_of_mul_eq_one_right hm
  rw [toC_ln, this, toC_neg, toC_ln]
  apply Complex.log_inv
  intro ha
  rw [Complex.arg_eq_pi_iff] at ha
  rcases h with h | h
  · exact h ha.2
  · have := ha.1; simp at this; linarith

/-- `asinh` is odd -/
theorem C74_asinh_odd (z : Cx ℝ) : (-z).asinh = -z.asinh := by
  rw [asinh_eq, asinh_eq]
  have e : ((1 : Cx ℝ) + -z * -z) = 1 + z * z := by ext <;> simp
  rw [e]
  have hsq := C36_sqrt_squared ((1 : Cx ℝ) + z * z)
  have h1 := re_sqrt_ge z
  set s := ((1 : Cx ℝ) + z * z).sqrt with hs
  apply ln_inv
  · apply toC_injective
    have := congrArg toC hsq
    simp only [toC_mul, toC_add, toC_neg, toC_one] at this ⊢
    linear_combination this
  · right
    have h2 := neg_abs_le z.re
    simp only [add_re]; linarith

/-- `asinh` commutes with conjugation exactly off the branch cuts, the imaginary axis beyond `±i`. -/
theorem C74_asinh_conj (z : Cx ℝ) :
    z.conjugate.asinh = z.asinh.conjugate ↔ z.re ≠ 0 ∨ |z.im| ≤ 1 := by
  constructor
  · intro h
    by_contra hc
    push Not at hc
    obtain ⟨hre, him⟩ := hc
    have hz : z.conjugate = -z := by ext <;> simp [hre]
    rw [hz, C74_asinh_odd] at h
    have h1 := congrArg re h
    simp only [neg_re, conjugate_re] at h1
    have h2 : z.asinh.re = 0 := by linarith
    have h3 := congrArg im (C38_sinh_asinh z)
    rw [sinh_eq] at h3
    simp only [h2, Real.cosh_zero, one_mul] at h3
    have := Real.abs_sin_le_one z.asinh.im
    rw [h3] at this; linarith
  · intro h
    rw [asinh_eq, asinh_eq]
    have e : ((1 : Cx ℝ) + z.conjugate * z.conjugate) = (1 + z * z).conjugate := by
      ext <;> simp; ring
    have hc : ((1 : Cx ℝ) + z * z).conjugate.sqrt = ((1 : Cx ℝ) + z * z).sqrt.conjugate := by
      apply sqrt_conj
      by_cases hz : z.im = 0
      · right; simp [hz]; nlinarith [mul_self_nonneg z.re]
      · by_cases hz' : z.re = 0
        · right
          have h' : |z.im| ≤ 1 := by rcases h with h | h; exacts [absurd hz' h, h]
          have := abs_le.mp h'
          simp [hz']; nlinarith
        · left; simp
          intro hh
          have : z.re * z.im = 0 := by linarith
          rcases mul_eq_zero.mp this with h | h
          · exact hz' h
          · exact hz h
    rw [e, hc, ← C34_conj_add]
    apply ln_conj
    right
    have h1 := re_sqrt_ge z
    have h2 := neg_abs_le z.re
    simp only [add_re]; linarith

private theorem conj_rot (z : Cx ℝ) : new (-z.conjugate.im) z.conjugate.re = -(new (-z.im) z.re).conjugate := by
  ext <;> simp

/-- spec_complex.rs 2022-2037: `asin` commutes with conjugation exactly off its branch cuts, the real axis
beyond `±1` (the test samples no real numbers) ... -/
theorem C74_asin_conjugate_partial (z : Cx ℝ) :
    z.conjugate.asin = z.asin.conjugate ↔ z.im ≠ 0 ∨ |z.re| ≤ 1 := by
  have h := C74_asinh_conj (new (-z.im) z.re)
  simp only [new_re, new_im, ne_eq, neg_eq_zero] at h
  rw [← h]
  unfold Cx.asin
  dsimp only
  rw [conj_rot, C74_asinh_odd]
  constructor
  · intro h
    have a := congrArg re h
    have b := congrArg im h
    simp at a b
    ext <;> simp <;> linarith
  · intro h
    rw [h]
    ext <;> simp

/-- ... and `acos` likewise, spec_complex.rs 1999-2014. -/
theorem C74_acos_conjugate_partial (z : Cx ℝ) :
    z.conjugate.acos = z.acos.conjugate ↔ z.im ≠ 0 ∨ |z.re| ≤ 1 := by
  by_cases him : z.im = 0
  · have hz : z.conjugate = z := by ext <;> simp [him]
    have hsq := C36_sqrt_squared ((1 : Cx ℝ) - z * z)
    rw [hz]
    constructor
    · intro h
      right
      have h1 := congrArg im h
      simp only [conjugate_im] at h1
      have h2 : z.acos.im = 0 := by linarith
      have h3 := congrArg re (C38_cos_acos z)
      have h4 : z.acos.cos.re = Real.cos z.acos.re := by
        have e : z.acos = fromReal z.acos.re := by ext <;> simp [h2]
        rw [e]; exact (C74_trig_real (fromReal z.acos.re)).1
      rw [← h3, h4]; exact Real.abs_cos_le_one _
    · rintro (h | h)
      · exact absurd him h
      · have h0 : z.acos.im = 0 := by
          rw [acos_eq]
          have hpos : 0 ≤ ((1 : Cx ℝ) - z * z).re := by
            have := abs_le.mp h
            simp [him]; nlinarith
          have hconj := sqrt_conj ((1 : Cx ℝ) - z * z) (Or.inr hpos)
          have hself : ((1 : Cx ℝ) - z * z).conjugate = 1 - z * z := by ext <;> simp [him]
          rw [hself] at hconj
          set s := ((1 : Cx ℝ) - z * z).sqrt
          have hsim : s.im = 0 := by
            have := congrArg im hconj; simp at this; linarith
          have h1 := congrArg re hsq
          simp only [mul_re, sub_re, one_re, hsim, him, mul_zero, sub_zero] at h1
          have hn : (unitIm * s + z).norm = 1 := by
            rw [norm_def, normSquared]
            simp only [add_re, mul_re, add_im, mul_im, unitIm_re, unitIm_im, hsim, him]
            have : (0 * s.re - 1 * 0 + z.re) * (0 * s.re - 1 * 0 + z.re)
              + (0 * 0 + 1 * s.re + 0) * (0 * 0 + 1 * s.re + 0) = 1 := by linarith
            rw [this, Real.sqrt_one]
          have : (-unitIm * (unitIm * s + z).ln).im = -(unitIm * s + z).ln.re := by simp
          rw [this]
          change -Real.log (unitIm * s + z).norm = 0
          rw [hn]; simp
        ext <;> simp [h0]
  · refine ⟨fun _ => Or.inl him, fun _ => ?_⟩
    rw [acos_eq, acos_eq]
    have e : ((1 : Cx ℝ) - z.conjugate * z.conjugate) = (1 - z * z).conjugate := by
      ext <;> simp; ring
    have hc : ((1 : Cx ℝ) - z * z).conjugate.sqrt = ((1 : Cx ℝ) - z * z).sqrt.conjugate := by
      apply sqrt_conj
      by_cases hre : z.re = 0
      · right; simp [hre]; nlinarith [mul_self_nonneg z.im]
      · left; simp
        intro hh
        have : z.re * z.im = 0 := by linarith
        rcases mul_eq_zero.mp this with h | h
        · exact hre h
        · exact him h
    rw [e, hc]
    have hsq := C36_sqrt_squared ((1 : Cx ℝ) - z * z)
    set s := ((1 : Cx ℝ) - z * z).sqrt
    have hprod : (unitIm * s + z) * (z - unitIm * s) = 1 := by
      apply toC_injective
      have := congrArg toC hsq
      simp only [toC_mul, toC_add, toC_sub, toC_one, toC_unitIm] at this ⊢
      linear_combination this - (s.toC * s.toC) * Complex.I_mul_I
    -- `i s + z` is not a negative real: it would make `z` real
    have hne : (unitIm * s + z).im ≠ 0 ∨ 0 ≤ (unitIm * s + z).re := by
      left
      intro h0
      apply him
      have h1 := congrArg re hprod
      have h2 := congrArg im hprod
      simp only [mul_re, mul_im, add_re, add_im, sub_re, sub_im, unitIm_re, unitIm_im, one_re, one_im] at h0 h1 h2
      have e1 : s.re = -z.im := by linarith
      rw [e1] at h1 h2
      have h3 : (z.re - s.im) * z.im = 0 := by nlinarith
      have h4 : (z.re - s.im) ≠ 0 := by
        intro h5
        have : 0 * s.re - 1 * s.im + z.re = 0 := by linarith
        rw [show (0 * (-z.im) - 1 * s.im + z.re) = z.re - s.im by ring, h5] at h1
        have : (0 * s.im + 1 * -z.im + z.im) = 0 := by ring
        rw [this] at h1
        linarith
      rcases mul_eq_zero.mp h3 with h | h
      · exact absurd h h4
      · exact h
    have h1 := ln_conj _ hne
    have h2 := ln_inv _ _ hprod hne
    -- the conjugate of `z - i s` is `i s̄ + z̄`
    have hw : unitIm * s.conjugate + z.conjugate = (z - unitIm * s).conjugate := by
      ext <;> simp <;> ring
    have hne2 : (z - unitIm * s).im ≠ 0 ∨ 0 ≤ (z - unitIm * s).re := by
      left
      intro h0
      rcases hne with hne | hne
      all_goals
        have g1 := congrArg re hprod
        have g2 := congrArg im hprod
        rw [mul_re, h0] at g1
        rw [mul_im, h0] at g2
        simp only [mul_zero, zero_add, sub_zero, one_re, one_im] at g1 g2
        have g3 : (z - unitIm * s).re ≠ 0 := by
          intro h; rw [h, mul_zero] at g1; norm_num at g1
        have g4 : (unitIm * s + z).im = 0 := by
          rcases mul_eq_zero.mp g2 with h | h
          · exact h
          · exact absurd h g3
        apply him
        simp only [add_im, mul_im, sub_im, unitIm_re, unitIm_im] at g4 h0
        linarith
    rw [hw, ln_conj _ hne2, h2]
    ext <;> simp

/-- spec_complex.rs 2045-2060: `atanh` (and `atan`, below) commutes with conjugation exactly off its branch
cuts; `±1` themselves are singularities. -/
theorem C74_atanh_conj (z : Cx ℝ) (h1 : z ≠ 1) (h2 : z ≠ -1) :
    z.conjugate.atanh = z.atanh.conjugate ↔ z.im ≠ 0 ∨ |z.re| < 1 := by
  have g1 : z.conjugate ≠ 1 := fun h => h1 (by
    rw [← C34_conj_conj z, h]; ext <;> simp)
  have g2 : z.conjugate ≠ -1 := fun h => h2 (by
    rw [← C34_conj_conj z, h]; ext <;> simp)
  rw [atanh_eq _ h1 h2, atanh_eq _ g1 g2]
  have e1 : (1 : Cx ℝ) + z.conjugate = (1 + z).conjugate := by ext <;> simp
  have e2 : (1 : Cx ℝ) - z.conjugate = (1 - z).conjugate := by ext <;> simp
  rw [e1, e2]
  have hdiv : ∀ u : Cx ℝ, (u / ((1 : Cx ℝ) + 1)).conjugate = u.conjugate / ((1 : Cx ℝ) + 1) := by
    intro u; ext <;> simp; ring
  by_cases him : z.im = 0
  · have hr1 : z.re ≠ 1 := fun h => h1 (by ext <;> simp [h, him])
    have hr2 : z.re ≠ -1 := fun h => h2 (by ext <;> simp [h, him])
    have c1 : ((1 : Cx ℝ) + z).conjugate = 1 + z := by ext <;> simp [him]
    have c2 : ((1 : Cx ℝ) - z).conjugate = 1 - z := by ext <;> simp [him]
    have earg : ∀ x : Cx ℝ, x.im = 0 → (x.re < 0 → x.ln.im = Real.pi) ∧ (0 ≤ x.re → x.ln.im = 0) := by
      intro x hx
      have e : x.ln.im = Complex.arg x.toC := rfl
      constructor
      · intro h; rw [e, Complex.arg_eq_pi_iff]; exact ⟨h, hx⟩
      · intro h; rw [e, Complex.arg_eq_zero_iff]; exact ⟨h, hx⟩
    have e3 := earg (1 + z) (by simp [him])
    have e4 := earg (1 - z) (by simp [him])
    simp only [add_re, sub_re, one_re] at e3 e4
    rw [c1, c2]
    constructor
    · intro h
      right
      have h5 := congrArg im h
      rw [hdiv] at h5
      simp at h5
      have h6 : ((1 : Cx ℝ) + z).ln.im - ((1 : Cx ℝ) - z).ln.im = 0 := by
        linarith
      rw [abs_lt]
      constructor
      · by_contra hc
        push Not at hc
        have a := e3.1 (by have := lt_of_le_of_ne hc hr2; linarith)
        have b := e4.2 (by linarith)
        rw [a, b] at h6; linarith [Real.pi_pos]
      · by_contra hc
        push Not at hc
        have a := e3.2 (by linarith)
        have b := e4.1 (by have := lt_of_le_of_ne hc hr1.symm; linarith)
        rw [a, b] at h6; linarith [Real.pi_pos]
    · rintro (h | h)
      · exact absurd him h
      · have := abs_lt.mp h
        have a := e3.2 (by linarith)
        have b := e4.2 (by linarith)
        rw [hdiv]
        congr 1
        ext <;> simp [a, b]
  · refine ⟨fun _ => Or.inl him, fun _ => ?_⟩
    rw [ln_conj _ (Or.inl (by simpa using him)), ln_conj _ (Or.inl (by simpa using him)), hdiv]
    congr 1
    ext <;> simp; ring

private theorem atanh_odd (z : Cx ℝ) (h1 : z ≠ 1) (h2 : z ≠ -1) : (-z).atanh = -z.atanh := by
  have g1 : -z ≠ 1 := fun h => h2 (by
    have a := congrArg re h; have b := congrArg im h; simp at a b; ext <;> simp [b]; linarith)
  have g2 : -z ≠ -1 := fun h => h1 (by
    have a := congrArg re h; have b := congrArg im h; simp at a b; ext <;> simp [b]; linarith)
  rw [atanh_eq _ h1 h2, atanh_eq _ g1 g2]
  have e1 : (1 : Cx ℝ) + -z = 1 - z := by ext <;> simp; ring
  have e2 : (1 : Cx ℝ) - -z = 1 + z := by ext <;> simp
  rw [e1, e2]
  ext <;> simp <;> ring

theorem C74_atan_conjugate_partial (z : Cx ℝ) (h1 : z ≠ unitIm) (h2 : z ≠ -unitIm) :
    z.conjugate.atan = z.atan.conjugate ↔ z.re ≠ 0 ∨ |z.im| < 1 := by
  have g1 : new (-z.im) z.re ≠ 1 := by
    intro h; apply h2
    have a := congrArg re h; have b := congrArg im h; simp at a b
    ext <;> simp [b]; linarith
  have g2 : new (-z.im) z.re ≠ -1 := by
    intro h; apply h1
    have a := congrArg re h; have b := congrArg im h; simp at a b
    ext <;> simp [b, a]
  have c1 : (new (-z.im) z.re).conjugate ≠ 1 := fun h => g1 (by
    rw [← C34_conj_conj (new (-z.im) z.re), h]; ext <;> simp)
  have c2 : (new (-z.im) z.re).conjugate ≠ -1 := fun h => g2 (by
    rw [← C34_conj_conj (new (-z.im) z.re), h]; ext <;> simp)
  have h := C74_atanh_conj (new (-z.im) z.re) g1 g2
  simp only [new_re, new_im, abs_neg] at h
  rw [← h]
  unfold Cx.atan
  dsimp only
  rw [conj_rot, atanh_odd _ c1 c2]
  constructor
  · intro h
    have a := congrArg re h
    have b := congrArg im h
    simp at a b
    ext <;> simp <;> linarith
  · intro h
    rw [h]
    ext <;> simp

/-- On the cuts the three laws fail: at `2`, `2` and `2i`. -/
theorem C74_inverse_conjugate_fails :
    ¬ (∀ z : Cx ℝ, z.conjugate.acos = z.acos.conjugate) ∧
    ¬ (∀ z : Cx ℝ, z.conjugate.asin = z.asin.conjugate) ∧
    ¬ (∀ z : Cx ℝ, z ≠ unitIm → z ≠ -unitIm → z.conjugate.atan = z.atan.conjugate) := by
  refine ⟨fun h => ?_, fun h => ?_, fun h => ?_⟩
  · have := (C74_acos_conjugate_partial ⟨2, 0⟩).mp (h _); norm_num at this
  · have := (C74_asin_conjugate_partial ⟨2, 0⟩).mp (h _); norm_num at this
  · have n1 : (⟨0, 2⟩ : Cx ℝ) ≠ unitIm := fun h => by have := congrArg im h; simp at this
    have n2 : (⟨0, 2⟩ : Cx ℝ) ≠ -unitIm := fun h => by have := congrArg im h; simp at this; norm_num at this
    have := (C74_atan_conjugate_partial ⟨0, 2⟩ n1 n2).mp (h _ n1 n2)
    norm_num at this

end Cgl

import Verif.Props.C34_ComplexField
import Verif.Props.C36_ComplexPolarExp
import Mathlib.Analysis.SpecialFunctions.Trigonometric.Complex

/-!
# C38 - circular and hyperbolic functions of a complex argument

Exact real arithmetic, so every component is finite. `Complex.cos`, `Complex.sinh`, ... are Mathlib's
functions, defined from the complex exponential.
-/

namespace Cgl
open Cx

namespace Cx

theorem toC_eq (z : Cx ℝ) : z.toC = (z.re : ℂ) + (z.im : ℂ) * Complex.I := (Complex.re_add_im z.toC).symm

theorem cosh_eq (z : Cx ℝ) : z.cosh = ⟨Real.cosh z.re * Real.cos z.im, Real.sinh z.re * Real.sin z.im⟩ := by
  unfold Cx.cosh
  by_cases h : z.re = 0 ∧ z.im = 0
  · ext <;> simp [h.1, h.2]
  · have : (z.re == 0 && z.im == 0) = false := by
      simpa using h
    ext <;> simp [this]

theorem sinh_eq (z : Cx ℝ) : z.sinh = ⟨Real.sinh z.re * Real.cos z.im, Real.cosh z.re * Real.sin z.im⟩ := by
  unfold Cx.sinh; ext <;> simp

theorem toC_cosh (z : Cx ℝ) : z.cosh.toC = Complex.cosh z.toC := by
  rw [toC_eq z, Complex.cosh_add, Complex.cosh_mul_I, Complex.sinh_mul_I, cosh_eq]
  apply Complex.ext <;>
    simp [← Complex.ofReal_cosh, ← Complex.ofReal_sinh, ← Complex.ofReal_cos, ← Complex.ofReal_sin]

theorem toC_sinh (z : Cx ℝ) : z.sinh.toC = Complex.sinh z.toC := by
  rw [toC_eq z, Complex.sinh_add, Complex.cosh_mul_I, Complex.sinh_mul_I, sinh_eq]
  apply Complex.ext <;>
    simp [← Complex.ofReal_cosh, ← Complex.ofReal_sinh, ← Complex.ofReal_cos, ← Complex.ofReal_sin]

/-- multiplication by `i` -/
theorem toC_rot (z : Cx ℝ) : (new (-z.im) z.re).toC = Complex.I * z.toC := by
  apply Complex.ext <;> simp

theorem toC_rot' (z : Cx ℝ) : (new z.im (-z.re)).toC = -Complex.I * z.toC := by
  apply Complex.ext <;> simp

end Cx

/-- `cosh`, `sinh`, `cos`, `sin` are the complex functions. -/
theorem C38_cosh (z : Cx ℝ) : z.cosh.toC = Complex.cosh z.toC := toC_cosh z
theorem C38_sinh (z : Cx ℝ) : z.sinh.toC = Complex.sinh z.toC := toC_sinh z
theorem C38_cos (z : Cx ℝ) : z.cos.toC = Complex.cos z.toC := by
  rw [Cx.cos, toC_cosh, toC_rot, mul_comm, Complex.cosh_mul_I]
theorem C38_sin (z : Cx ℝ) : z.sin.toC = Complex.sin z.toC := by
  rw [Cx.sin]
  rw [toC_rot', toC_sinh, toC_rot, mul_comm Complex.I, Complex.sinh_mul_I]
  linear_combination (-Complex.sin z.toC) * Complex.I_mul_I

/-- The denominator of `tanh` is `2 |cosh z|²`: it vanishes exactly at the poles. -/
theorem tanh_denominator (z : Cx ℝ) :
    Real.cosh (z.re + z.re) + Real.cos (z.im + z.im) = 2 * z.cosh.normSquared := by
  have h1 : Real.cosh (z.re + z.re) = 2 * Real.cosh z.re ^ 2 - 1 := by
    rw [← two_mul, Real.cosh_two_mul]; have := Real.cosh_sq z.re; linarith
  have h2 : Real.cos (z.im + z.im) = 2 * Real.cos z.im ^ 2 - 1 := by rw [← two_mul, Real.cos_two_mul]
  have h3 := Real.cosh_sq z.re
  have h4 := Real.sin_sq_add_cos_sq z.im
  rw [h1, h2, cosh_eq, normSquared]
  have h5 : Real.sin z.im * Real.sin z.im = 1 - Real.cos z.im ^ 2 := by linarith
  have h6 : Real.sinh z.re * Real.sinh z.re = Real.cosh z.re ^ 2 - 1 := by linarith
  have : Real.sinh z.re * Real.sin z.im * (Real.sinh z.re * Real.sin z.im)
      = (Real.sinh z.re * Real.sinh z.re) * (Real.sin z.im * Real.sin z.im) := by ring
  rw [this, h5, h6]; ring

/-- `tanh` is `sinh / cosh` away from its poles ... -/
theorem C38_tanh (z : Cx ℝ) (h : Complex.cosh z.toC ≠ 0) : z.tanh.toC = Complex.tanh z.toC := by
  have hc : z.cosh ≠ 0 := by rwa [← toC_ne_zero, toC_cosh]
  have hn : z.cosh.normSquared ≠ 0 := normSquared_eq_zero.not.mpr hc
  rw [Complex.tanh, ← toC_cosh, ← toC_sinh, ← toC_div, toC_inj]
  have hd := tanh_denominator z
  have h3 := Real.cosh_sq z.re
  have h4 := Real.sin_sq_add_cos_sq z.im
  unfold Cx.tanh
  simp only [isInfinite_real, Bool.false_eq_true, if_false, isNan_real, Bool.false_and, fcosh_real, fcos_real,
    fsinh_real, fsin_real, hd]
  ext
  · rw [div_re, new_re]
    change _ = _ / z.cosh.normSquared
    rw [div_eq_div_iff (by positivity) hn, cosh_eq, sinh_eq, ← two_mul, Real.sinh_two_mul]
    ring_nf
    grind
  · rw [div_im, new_im]
    change _ = _ / z.cosh.normSquared
    rw [div_eq_div_iff (by positivity) hn, cosh_eq, sinh_eq, ← two_mul, Real.sin_two_mul]
    grind

/-- ... and `tan` is `sin / cos`. -/
theorem C38_tan (z : Cx ℝ) (h : Complex.cos z.toC ≠ 0) : z.tan.toC = Complex.tan z.toC := by
  have h' : Complex.cosh (new (-z.im) z.re).toC ≠ 0 := by
    rwa [toC_rot, mul_comm, Complex.cosh_mul_I]
  rw [Cx.tan]
  rw [toC_rot', C38_tanh _ h', toC_rot, mul_comm Complex.I, Complex.tanh_mul_I]
  linear_combination (-Complex.tan z.toC) * Complex.I_mul_I

/-- Pythagorean identities and quotients, in terms of the API. -/
theorem C38_identities (z : Cx ℝ) :
    z.sin * z.sin + z.cos * z.cos = 1 ∧ z.cosh * z.cosh - z.sinh * z.sinh = 1 ∧
    (z.cos ≠ 0 → z.tan = z.sin / z.cos) ∧ (z.cosh ≠ 0 → z.tanh = z.sinh / z.cosh) := by
  refine ⟨?_, ?_, ?_, ?_⟩
  · apply toC_injective
    simp only [toC_add, toC_mul, C38_sin, C38_cos, toC_one]
    have := Complex.sin_sq_add_cos_sq z.toC
    linear_combination this
  · apply toC_injective
    simp only [toC_sub, toC_mul, C38_sinh, C38_cosh, toC_one]
    have := Complex.cosh_sq_sub_sinh_sq z.toC
    linear_combination this
  · intro h
    apply toC_injective
    rw [← toC_ne_zero, C38_cos] at h
    rw [C38_tan z h, toC_div, C38_sin, C38_cos]; rfl
  · intro h
    apply toC_injective
    rw [← toC_ne_zero, C38_cosh] at h
    rw [C38_tanh z h, toC_div, C38_sinh, C38_cosh]; rfl

/-- Euler's formula connects them with `exp`. -/
theorem C38_euler (z : Cx ℝ) :
    (unitIm * z).exp = z.cos + unitIm * z.sin ∧ z.exp = z.cosh + z.sinh := by
  constructor
  · apply toC_injective
    simp only [toC_exp, toC_mul, toC_add, toC_unitIm, C38_cos, C38_sin]
    rw [mul_comm, Complex.exp_mul_I, mul_comm Complex.I]
  · apply toC_injective
    simp only [toC_exp, toC_add, C38_cosh, C38_sinh, Complex.cosh_add_sinh]

/-! ### inverse functions -/

theorem sqrt_mul_self_toC (z : Cx ℝ) : z.sqrt.toC * z.sqrt.toC = z.toC := by
  rw [← toC_mul, C36_sqrt_squared]

theorem asinh_eq (z : Cx ℝ) : z.asinh = (z + ((1 : Cx ℝ) + z * z).sqrt).ln := by
  unfold Cx.asinh; simp

theorem acosh_eq (z : Cx ℝ) :
    z.acosh = ((1 : Cx ℝ) + 1) * (((z + (1 : Cx ℝ)) / ((1 : Cx ℝ) + 1)).sqrt
      + ((z - (1 : Cx ℝ)) / ((1 : Cx ℝ) + 1)).sqrt).ln := by
  unfold Cx.acosh; simp

theorem atanh_eq (z : Cx ℝ) (h1 : z ≠ 1) (h2 : z ≠ -1) :
    z.atanh = (((1 : Cx ℝ) + z).ln - ((1 : Cx ℝ) - z).ln) / ((1 : Cx ℝ) + 1) := by
  unfold Cx.atanh
  have e1 : ¬ (z.re = (1 : Cx ℝ).re ∧ z.im = (1 : Cx ℝ).im) := fun h => h1 (Cx.ext h.1 h.2)
  have e2 : ¬ (z.re = (-(1 : Cx ℝ)).re ∧ z.im = (-(1 : Cx ℝ)).im) := fun h => h2 (Cx.ext h.1 h.2)
  simp only [isInfinite_real, isNan_real, Bool.false_eq_true, if_false, Bool.and_eq_true, beq_iff_eq, e1, e2]

theorem acos_eq (z : Cx ℝ) : z.acos = (-unitIm) * ((unitIm * ((1 : Cx ℝ) - z * z).sqrt) + z).ln := by
  unfold Cx.acos
  simp only [isInfinite_real, isNan_real, Bool.false_eq_true, if_false, Bool.or_false]
  by_cases h : (z.re == 0 && z.im == 0) = true
  · rw [if_pos h]
    have h0 : z = 0 := by simpa [Cx.ext_iff] using h
    subst h0
    have hs : ((1 : Cx ℝ) - 0 * 0).sqrt = 1 :=
      (C36_sqrt_unique _ _ (by ext <;> simp) (Or.inl (by simp))).symm
    have hl : (unitIm * (1 : Cx ℝ) + 0 : Cx ℝ) = unitIm := by ext <;> simp
    rw [hs, hl]
    apply toC_injective
    rw [toC_mul, toC_ln, toC_neg, toC_unitIm, Complex.log_I]
    have : (new ffracPi2 (-(0 : Cx ℝ).im) : Cx ℝ).toC = ((Real.pi / 2 : ℝ) : ℂ) := by
      apply Complex.ext <;> simp
    rw [this]; push_cast
    linear_combination (Real.pi / 2 : ℂ) * Complex.I_mul_I
  · rw [if_neg h]

/-- `cosh` of a logarithm -/
private theorem cosh_log {w w' : ℂ} (h : w * w' = 1) : Complex.cosh (Complex.log w) = (w + w') / 2 := by
  have hw : w ≠ 0 := left_ne_zero_of_mul_eq_one h
  rw [Complex.cosh, Complex.exp_neg, Complex.exp_log hw, eq_inv_of_mul_eq_one_right h]

private theorem sinh_log {w w' : ℂ} (h : w * w' = 1) : Complex.sinh (Complex.log w) = (w - w') / 2 := by
  have hw : w ≠ 0 := left_ne_zero_of_mul_eq_one h
  rw [Complex.sinh, Complex.exp_neg, Complex.exp_log hw, eq_inv_of_mul_eq_one_right h]

/-- Right inverses: every complex number for `acos`, `asin`, `acosh`, `asinh` ... -/
theorem C38_cos_acos (z : Cx ℝ) : z.acos.cos = z := by
  apply toC_injective
  rw [C38_cos, acos_eq]
  set s := ((1 : Cx ℝ) - z * z).sqrt with hs
  have h1 : s.toC * s.toC = 1 - z.toC * z.toC := by
    rw [hs, sqrt_mul_self_toC]; simp
  simp only [toC_mul, toC_neg, toC_unitIm, toC_ln, toC_add]
  have h2 : (Complex.I * s.toC + z.toC) * (z.toC - Complex.I * s.toC) = 1 := by
    linear_combination (-(s.toC * s.toC)) * Complex.I_mul_I + h1
  rw [← Complex.cosh_mul_I]
  have h3 : -Complex.I * Complex.log (Complex.I * s.toC + z.toC) * Complex.I
      = Complex.log (Complex.I * s.toC + z.toC) := by
    linear_combination (-Complex.log (Complex.I * s.toC + z.toC)) * Complex.I_mul_I
  rw [h3, cosh_log h2]; ring

theorem C38_sinh_asinh (z : Cx ℝ) : z.asinh.sinh = z := by
  apply toC_injective
  rw [C38_sinh, asinh_eq]
  set s := ((1 : Cx ℝ) + z * z).sqrt with hs
  have h1 : s.toC * s.toC = 1 + z.toC * z.toC := by
    rw [hs, sqrt_mul_self_toC]; simp
  simp only [toC_ln, toC_add]
  have h2 : (z.toC + s.toC) * (s.toC - z.toC) = 1 := by linear_combination h1
  rw [sinh_log h2]; ring

theorem C38_cosh_acosh (z : Cx ℝ) : z.acosh.cosh = z := by
  apply toC_injective
  rw [C38_cosh, acosh_eq]
  set a := ((z + (1 : Cx ℝ)) / ((1 : Cx ℝ) + 1)).sqrt with ha
  set b := ((z - (1 : Cx ℝ)) / ((1 : Cx ℝ) + 1)).sqrt with hb
  have h1 : a.toC * a.toC = (z.toC + 1) / 2 := by
    rw [ha, sqrt_mul_self_toC]; simp [one_add_one_eq_two]
  have h2 : b.toC * b.toC = (z.toC - 1) / 2 := by
    rw [hb, sqrt_mul_self_toC]; simp [one_add_one_eq_two]
  simp only [toC_mul, toC_ln, toC_add, toC_one, one_add_one_eq_two]
  have h3 : (a.toC + b.toC) * (a.toC - b.toC) = 1 := by linear_combination h1 - h2
  rw [Complex.cosh_two_mul, cosh_log h3, sinh_log h3]
  linear_combination h1 + h2

theorem C38_sin_asin (z : Cx ℝ) : z.asin.sin = z := by
  have h := C38_sinh_asinh (new (-z.im) z.re)
  unfold Cx.sin Cx.asin
  dsimp only
  simp only [new_re, new_im, neg_neg]
  change new ((new (-z.im) z.re).asinh.sinh).im (-((new (-z.im) z.re).asinh.sinh).re) = z
  rw [h]; ext <;> simp

/-- ... all except `±1` for `atanh` and all except `±i` for `atan`, where the functions are infinite. -/
theorem C38_tanh_atanh (z : Cx ℝ) (h1 : z ≠ 1) (h2 : z ≠ -1) : z.atanh.tanh = z := by
  have e1 : (1 : ℂ) + z.toC ≠ 0 := by
    intro h; apply h2; apply toC_injective; rw [toC_neg, toC_one]; linear_combination h
  have e2 : (1 : ℂ) - z.toC ≠ 0 := by
    intro h; apply h1; apply toC_injective; rw [toC_one]; linear_combination -h
  have hz : z.atanh.toC = (Complex.log (1 + z.toC) - Complex.log (1 - z.toC)) / 2 := by
    rw [atanh_eq z h1 h2]; simp [toC_ln, one_add_one_eq_two]
  set u := z.atanh.toC with hu
  have hexp : Complex.exp u * Complex.exp u * (1 - z.toC) = 1 + z.toC := by
    rw [← Complex.exp_add, hz]
    have : (Complex.log (1 + z.toC) - Complex.log (1 - z.toC)) / 2
        + (Complex.log (1 + z.toC) - Complex.log (1 - z.toC)) / 2
        = Complex.log (1 + z.toC) - Complex.log (1 - z.toC) := by ring
    rw [this, Complex.exp_sub, Complex.exp_log e1, Complex.exp_log e2]; field_simp
  have hmul : Complex.exp u * Complex.exp (-u) = 1 := by rw [← Complex.exp_add]; simp
  have hE := Complex.exp_ne_zero u
  have hcosh : Complex.cosh u ≠ 0 := by
    intro h
    rw [Complex.cosh] at h
    have h3 : Complex.exp u + Complex.exp (-u) = 0 := by linear_combination 2 * h
    have h4 : Complex.exp u * Complex.exp u = -1 := by linear_combination Complex.exp u * h3 - hmul
    rw [h4] at hexp
    have : (2 : ℂ) = 0 := by linear_combination -hexp
    norm_num at this
  apply toC_injective
  rw [C38_tanh _ hcosh, Complex.tanh, div_eq_iff hcosh, Complex.sinh, Complex.cosh]
  have h5 : Complex.exp u * (Complex.exp u - Complex.exp (-u)
      - z.toC * (Complex.exp u + Complex.exp (-u))) = 0 := by
    linear_combination hexp - (1 + z.toC) * hmul
  rcases mul_eq_zero.mp h5 with h | h
  · exact absurd h hE
  · linear_combination h / 2

theorem C38_tan_atan (z : Cx ℝ) (h1 : z ≠ unitIm) (h2 : z ≠ -unitIm) : z.atan.tan = z := by
  have h := C38_tanh_atanh (new (-z.im) z.re)
    (by intro h; apply h2; have a := congrArg re h; have b := congrArg im h; simp at a b
        ext <;> simp [b]; linarith)
    (by intro h; apply h1; have a := congrArg re h; have b := congrArg im h; simp at a b
        ext <;> simp [b, a])
  unfold Cx.tan Cx.atan
  dsimp only
  simp only [new_re, new_im, neg_neg]
  change new ((new (-z.im) z.re).atanh.tanh).im (-((new (-z.im) z.re).atanh.tanh).re) = z
  rw [h]; ext <;> simp

/-! ### principal ranges -/

/-- The real part of `√(1 + z²)` is at least `|Re z|`. -/
theorem re_sqrt_ge (z : Cx ℝ) : |z.re| ≤ (((1 : Cx ℝ) + z * z).sqrt).re := by
  have h0 := C36_sqrt_re_nonneg ((1 : Cx ℝ) + z * z)
  have h := C36_sqrt_squared ((1 : Cx ℝ) + z * z)
  generalize ((1 : Cx ℝ) + z * z).sqrt = s at h0 h
  have h1 := congrArg re h
  have h2 := congrArg im h
  simp only [mul_re, mul_im, add_re, add_im, one_re, one_im] at h1 h2
  apply abs_le_of_sq_le_sq _ h0
  by_contra hlt
  push Not at hlt
  have hz : s.re * s.im = z.re * z.im := by linarith
  have hB : s.im ^ 2 < z.im ^ 2 := by nlinarith
  have hA : 0 ≤ s.re ^ 2 := sq_nonneg _
  have hp : s.re ^ 2 * s.im ^ 2 = z.re ^ 2 * z.im ^ 2 := by
    rw [← mul_pow, ← mul_pow, hz]
  nlinarith [sq_nonneg s.im, sq_nonneg z.im, sq_nonneg z.re]

theorem arg_of_re_nonneg (z : Cx ℝ) (h : 0 ≤ z.re) : -(Real.pi / 2) ≤ z.arg ∧ z.arg ≤ Real.pi / 2 := by
  have := (Complex.abs_arg_le_pi_div_two_iff (z := z.toC)).mpr h
  exact abs_le.mp this

/-- `asinh` has imaginary part, and `asin` real part, in `[-π/2, π/2]`. -/
theorem C38_asinh_range (z : Cx ℝ) : -(Real.pi / 2) ≤ z.asinh.im ∧ z.asinh.im ≤ Real.pi / 2 := by
  rw [asinh_eq]
  apply arg_of_re_nonneg
  have := abs_le.mp (re_sqrt_ge z)
  have h := neg_abs_le z.re
  have h2 := re_sqrt_ge z
  simp only [add_re] at *
  linarith

theorem C38_asin_range (z : Cx ℝ) : -(Real.pi / 2) ≤ z.asin.re ∧ z.asin.re ≤ Real.pi / 2 :=
  C38_asinh_range (new (-z.im) z.re)

/-- `acos` has real part in `[0, π]`. -/
theorem C38_acos_range (z : Cx ℝ) : 0 ≤ z.acos.re ∧ z.acos.re ≤ Real.pi := by
  rw [acos_eq]
  have h := re_sqrt_ge (new (-z.im) z.re)
  have e : ((1 : Cx ℝ) + new (-z.im) z.re * new (-z.im) z.re) = 1 - z * z := by
    ext <;> simp <;> ring
  rw [e] at h
  have h2 : 0 ≤ (unitIm * ((1 : Cx ℝ) - z * z).sqrt + z).toC.im := by
    have := neg_abs_le (-z.im)
    simp only [new_re] at h
    have h3 : -|(-z.im)| ≤ z.im := by rw [abs_neg]; exact neg_abs_le _
    simp only [toC_im, add_im, mul_im, unitIm_re, unitIm_im]
    linarith
  have h4 : (-unitIm * (unitIm * ((1 : Cx ℝ) - z * z).sqrt + z).ln).re
      = Complex.arg (unitIm * ((1 : Cx ℝ) - z * z).sqrt + z).toC := by
    simp [ln, arg_eq]
  rw [h4]
  exact ⟨Complex.arg_nonneg_iff.mpr h2, Complex.arg_le_pi _⟩

/-- `acosh` has non-negative real part. -/
theorem C38_acosh_range (z : Cx ℝ) : 0 ≤ z.acosh.re := by
  rw [acosh_eq]
  have ha := C36_sqrt_squared ((z + (1 : Cx ℝ)) / ((1 : Cx ℝ) + 1))
  have hb := C36_sqrt_squared ((z - (1 : Cx ℝ)) / ((1 : Cx ℝ) + 1))
  have ha0 := C36_sqrt_re_nonneg ((z + (1 : Cx ℝ)) / ((1 : Cx ℝ) + 1))
  have hb0 := C36_sqrt_re_nonneg ((z - (1 : Cx ℝ)) / ((1 : Cx ℝ) + 1))
  have ha1 := C36_sqrt_principal ((z + (1 : Cx ℝ)) / ((1 : Cx ℝ) + 1))
  have hb1 := C36_sqrt_principal ((z - (1 : Cx ℝ)) / ((1 : Cx ℝ) + 1))
  generalize ((z + (1 : Cx ℝ)) / ((1 : Cx ℝ) + 1)).sqrt = a at *
  generalize ((z - (1 : Cx ℝ)) / ((1 : Cx ℝ) + 1)).sqrt = b at *
  have a1 := congrArg re ha
  have a2 := congrArg im ha
  have b1 := congrArg re hb
  have b2 := congrArg im hb
  simp at a1 a2 b1 b2
  norm_num at a1 a2 b1 b2
  have him : a.re * a.im = b.re * b.im := by linarith
  have hdot : 0 ≤ a.re * b.re + a.im * b.im := by
    rcases ha0.eq_or_lt with h | h
    · have e1 := ha1 h.symm
      rw [← h, zero_mul] at him
      rcases hb0.eq_or_lt with h' | h'
      · have e2 := hb1 h'.symm
        have := mul_nonneg e1 e2
        have := mul_nonneg ha0 hb0
        linarith
      · have : b.im = 0 := by
          rcases mul_eq_zero.mp him.symm with h3 | h3
          · linarith
          · exact h3
        rw [this, ← h]; simp
    · rcases hb0.eq_or_lt with h' | h'
      · rw [← h', zero_mul] at him
        have : a.im = 0 := by
          rcases mul_eq_zero.mp him with h3 | h3
          · linarith
          · exact h3
        rw [this, ← h']; simp
      · have : 0 ≤ a.re * b.re * (a.im * b.im) := by
          have : a.re * b.re * (a.im * b.im) = (a.re * a.im) * (b.re * b.im) := by ring
          rw [this, him]; exact mul_self_nonneg _
        have h5 := mul_pos h h'
        have h6 : 0 ≤ a.im * b.im := nonneg_of_mul_nonneg_right this h5
        linarith
  have hns : 1 ≤ (a + b).normSquared := by
    have hprod : (a + b).normSquared * (a - b).normSquared = 1 := by
      have e1 : (a + b) * (a - b) = 1 := by
        ext <;> simp <;> linarith
      have := C34_norm_squared_mul (a + b) (a - b)
      rw [← this, e1]; simp [normSquared]
    have hge : (a - b).normSquared ≤ (a + b).normSquared := by
      simp only [normSquared, add_re, add_im, sub_re, sub_im]; nlinarith
    have h0 : 0 ≤ (a - b).normSquared := by
      simp only [normSquared]; nlinarith [mul_self_nonneg (a - b).re, mul_self_nonneg (a - b).im]
    nlinarith
  have hlog : 0 ≤ (a + b).ln.re := by
    apply Real.log_nonneg
    rw [norm_def]
    exact Real.one_le_sqrt.mpr hns
  simp; exact by linarith

/-- `atanh` has imaginary part, and `atan` real part, in `[-π/2, π/2]`. -/
theorem C38_atanh_range (z : Cx ℝ) (h1 : z ≠ 1) (h2 : z ≠ -1) :
    -(Real.pi / 2) ≤ z.atanh.im ∧ z.atanh.im ≤ Real.pi / 2 := by
  have him : z.atanh.im = (((1 : Cx ℝ) + z).arg - ((1 : Cx ℝ) - z).arg) / 2 := by
    rw [atanh_eq z h1 h2]; simp [ln]; norm_num; ring
  have hpi := Real.pi_pos
  have a1 := Complex.norm_mul_sin_arg ((1 : Cx ℝ) + z).toC
  have a2 := Complex.norm_mul_cos_arg ((1 : Cx ℝ) + z).toC
  have b1 := Complex.norm_mul_sin_arg ((1 : Cx ℝ) - z).toC
  have b2 := Complex.norm_mul_cos_arg ((1 : Cx ℝ) - z).toC
  have a3 := Complex.neg_pi_lt_arg ((1 : Cx ℝ) + z).toC
  have a4 := Complex.arg_le_pi ((1 : Cx ℝ) + z).toC
  have b3 := Complex.neg_pi_lt_arg ((1 : Cx ℝ) - z).toC
  have b4 := Complex.arg_le_pi ((1 : Cx ℝ) - z).toC
  have hA : 0 ≤ z.im → 0 ≤ Complex.arg ((1 : Cx ℝ) + z).toC := fun h =>
    Complex.arg_nonneg_iff.mpr (by simpa using h)
  have hA' : z.im < 0 → Complex.arg ((1 : Cx ℝ) + z).toC < 0 := fun h =>
    Complex.arg_neg_iff.mpr (by simpa using h)
  have hB : z.im ≤ 0 → 0 ≤ Complex.arg ((1 : Cx ℝ) - z).toC := fun h =>
    Complex.arg_nonneg_iff.mpr (by simpa using h)
  have hB' : 0 < z.im → Complex.arg ((1 : Cx ℝ) - z).toC < 0 := fun h =>
    Complex.arg_neg_iff.mpr (by simpa using h)
  rw [him, arg_eq, arg_eq]
  have hn : 0 ≤ ‖((1 : Cx ℝ) + z).toC‖ * ‖((1 : Cx ℝ) - z).toC‖ := by positivity
  generalize Complex.arg ((1 : Cx ℝ) + z).toC = α at *
  generalize Complex.arg ((1 : Cx ℝ) - z).toC = β at *
  generalize ‖((1 : Cx ℝ) + z).toC‖ = p at *
  generalize ‖((1 : Cx ℝ) - z).toC‖ = q at *
  simp only [toC_re, toC_im, add_re, add_im, sub_re, sub_im, one_re, one_im] at a1 a2 b1 b2
  have hsin : p * q * Real.sin (α - β) = 2 * z.im := by
    rw [Real.sin_sub]
    linear_combination q * Real.cos β * a1 - q * Real.sin β * a2 + (0 + z.im) * b2 - (1 + z.re) * b1
  rcases lt_trichotomy z.im 0 with h | h | h
  · have e1 := hA' h
    have e2 := hB h.le
    refine ⟨?_, by linarith⟩
    by_contra hlt
    push Not at hlt
    have : 0 ≤ Real.sin (α - β + 2 * Real.pi) :=
      Real.sin_nonneg_of_nonneg_of_le_pi (by linarith) (by linarith)
    rw [Real.sin_add_two_pi] at this
    have := mul_nonneg hn this
    linarith
  · have e1 := hA h.ge
    have e2 := hB h.le
    constructor <;> linarith
  · have e1 := hA h.le
    have e2 := hB' h
    refine ⟨by linarith, ?_⟩
    by_contra hlt
    push Not at hlt
    have : Real.sin (α - β - 2 * Real.pi) ≤ 0 :=
      Real.sin_nonpos_of_nonpos_of_neg_pi_le (by linarith) (by linarith)
    rw [Real.sin_sub_two_pi] at this
    have := mul_nonpos_of_nonneg_of_nonpos hn this
    linarith

theorem C38_atan_range (z : Cx ℝ) (h1 : z ≠ unitIm) (h2 : z ≠ -unitIm) :
    -(Real.pi / 2) ≤ z.atan.re ∧ z.atan.re ≤ Real.pi / 2 := by
  apply C38_atanh_range (new (-z.im) z.re)
  · intro h; apply h2; have a := congrArg re h; have b := congrArg im h; simp at a b
    ext <;> simp [b]; linarith
  · intro h; apply h1; have a := congrArg re h; have b := congrArg im h; simp at a b
    ext <;> simp [b, a]

example : (⟨2, 0⟩ : Cx ℝ) ≠ 1 ∧ (⟨2, 0⟩ : Cx ℝ) ≠ -1 ∧ (⟨2, 0⟩ : Cx ℝ) ≠ unitIm := by
  refine ⟨?_, ?_, ?_⟩ <;> (intro h; have a := congrArg re h; norm_num at a)
example : Complex.cosh (⟨1, 0⟩ : Cx ℝ).toC ≠ 0 := by
  rw [← toC_cosh, toC_ne_zero, Cx.ne_zero_iff, cosh_eq]; left; simp [(Real.cosh_pos 1).ne']
example : (⟨2, 0⟩ : Cx ℝ).acos.cos = ⟨2, 0⟩ := C38_cos_acos _

end Cgl

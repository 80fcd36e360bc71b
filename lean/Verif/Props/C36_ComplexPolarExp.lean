import Verif.Lemmas.Complex
import Mathlib.Analysis.SpecialFunctions.Complex.Arg

/-!
# C36 - polar form, exponential, logarithm, roots and powers of complex numbers

Exact real arithmetic. `toC z = re + i im` in Mathlib's `ℂ`.
-/

namespace Cgl
open Cx

/-- `polar_decomposition` followed by `from_polar_decomposition` is the identity, the scale is the modulus
and the angle is in `(-π, π]`. -/
theorem C36_polar_round_trip (z : Cx ℝ) :
    fromPolarDecomposition z.polarDecomposition.1 z.polarDecomposition.2 = z ∧
    z.polarDecomposition.1 = z.norm ∧
    -Real.pi < z.polarDecomposition.2.val ∧ z.polarDecomposition.2.val ≤ Real.pi := by
  refine ⟨?_, rfl, Complex.neg_pi_lt_arg _, Complex.arg_le_pi _⟩
  apply toC_injective
  rw [toC_fromPolar]
  simp only [polarDecomposition, norm_eq, arg_eq]
  exact Complex.norm_mul_exp_arg_mul_I _

/-- The other way round: a positive scale and an angle in `(-π, π]` are recovered. -/
theorem C36_polar_unique (r : ℝ) (t : Radians ℝ) (hr : 0 < r) (h1 : -Real.pi < t.val) (h2 : t.val ≤ Real.pi) :
    (fromPolarDecomposition r t).polarDecomposition = (r, t) := by
  simp only [polarDecomposition, norm_eq, arg_eq, toC_fromPolar]
  rw [Complex.exp_mul_I, Complex.arg_mul_cos_add_sin_mul_I hr ⟨h1, h2⟩, ← Complex.exp_mul_I]
  simp [abs_of_pos hr]

/-- `from_angle` and `cis` give the point of the unit circle at that angle; angles add under multiplication. -/
theorem C36_from_angle (t s : ℝ) :
    (fromAngle ⟨t⟩ : Cx ℝ) = ⟨Real.cos t, Real.sin t⟩ ∧ (cis t : Cx ℝ) = fromAngle ⟨t⟩ ∧
    (fromAngle ⟨t⟩ : Cx ℝ).norm = 1 ∧
    (fromAngle ⟨t + s⟩ : Cx ℝ) = fromAngle ⟨t⟩ * fromAngle ⟨s⟩ := by
  refine ⟨?_, ?_, ?_, ?_⟩
  · ext <;> simp [fromAngle, fromPolarDecomposition]
  · ext <;> simp [fromAngle, fromPolarDecomposition, cis]
  · simp [norm_def, normSquared, fromAngle, fromPolarDecomposition, ← sq]
  · ext <;> simp [fromAngle, fromPolarDecomposition, Real.cos_add, Real.sin_add] <;> ring

/-- `exp` is the complex exponential. -/
theorem C36_exp (z : Cx ℝ) : z.exp.toC = Complex.exp z.toC := toC_exp z

theorem C36_exp_add (z w : Cx ℝ) : (z + w).exp = z.exp * w.exp := by
  apply toC_injective; simp [toC_exp, Complex.exp_add]

theorem C36_exp_ne_zero (z : Cx ℝ) : z.exp ≠ 0 := by
  rw [← toC_ne_zero, toC_exp]; exact Complex.exp_ne_zero _

theorem C36_exp_zero : (0 : Cx ℝ).exp = 1 := by
  apply toC_injective; simp [toC_exp]

/-- `ln` is the principal logarithm. -/
theorem C36_ln (z : Cx ℝ) (_hz : z ≠ 0) : z.ln.toC = Complex.log z.toC := toC_ln z

theorem C36_exp_ln (z : Cx ℝ) (hz : z ≠ 0) : z.ln.exp = z := by
  apply toC_injective
  rw [toC_exp, toC_ln, Complex.exp_log (toC_ne_zero.mpr hz)]

/-- the imaginary part of `ln` lies in `(-π, π]` and its real part is `ln |z|` -/
theorem C36_ln_range (z : Cx ℝ) (_hz : z ≠ 0) :
    z.ln.re = Real.log z.norm ∧ -Real.pi < z.ln.im ∧ z.ln.im ≤ Real.pi :=
  ⟨rfl, Complex.neg_pi_lt_arg _, Complex.arg_le_pi _⟩

/-- `ln (exp z) = z` on the principal strip. -/
theorem C36_ln_exp (z : Cx ℝ) (h1 : -Real.pi < z.im) (h2 : z.im ≤ Real.pi) : z.exp.ln = z := by
  apply toC_injective
  rw [toC_ln, toC_exp, Complex.log_exp h1 h2]

/-- `sqrt` squares to its argument. -/
theorem C36_sqrt_squared (z : Cx ℝ) : z.sqrt * z.sqrt = z := by
  apply toC_injective
  have h : z.sqrt = fromPolarDecomposition (Real.sqrt z.norm) ⟨z.arg / 2⟩ := by
    simp [Cx.sqrt, fromPolarDecomposition, one_add_one_eq_two]
  rw [toC_mul, h, toC_fromPolar, mul_mul_mul_comm, ← Complex.ofReal_mul, Real.mul_self_sqrt (norm_nonneg z),
    ← Complex.exp_add]
  have : ((z.arg / 2 : ℝ) : ℂ) * Complex.I + ((z.arg / 2 : ℝ) : ℂ) * Complex.I = z.arg * Complex.I := by
    push_cast; ring
  rw [this, norm_eq, arg_eq]
  exact Complex.norm_mul_exp_arg_mul_I _

theorem C36_sqrt_re_nonneg (z : Cx ℝ) : 0 ≤ z.sqrt.re := by
  have h1 : -Real.pi < z.arg := Complex.neg_pi_lt_arg _
  have h2 : z.arg ≤ Real.pi := Complex.arg_le_pi _
  apply mul_nonneg (Real.sqrt_nonneg _)
  change 0 ≤ Real.cos (z.arg / (1 + 1))
  apply Real.cos_nonneg_of_mem_Icc
  constructor <;> norm_num <;> linarith

/-- ... with non-negative imaginary part when the real part is zero: the principal square root. -/
theorem C36_sqrt_principal (z : Cx ℝ) (h : z.sqrt.re = 0) : 0 ≤ z.sqrt.im := by
  have h1 : -Real.pi < z.arg := Complex.neg_pi_lt_arg _
  have h2 : z.arg ≤ Real.pi := Complex.arg_le_pi _
  have hre : Real.sqrt z.norm * Real.cos (z.arg / (1 + 1)) = 0 := h
  change 0 ≤ Real.sqrt z.norm * Real.sin (z.arg / (1 + 1))
  rcases mul_eq_zero.mp hre with h3 | h3
  · rw [h3, zero_mul]
  · apply mul_nonneg (Real.sqrt_nonneg _)
    apply Real.sin_nonneg_of_nonneg_of_le_pi
    · by_contra hneg
      push Not at hneg
      have : 0 < Real.cos (z.arg / (1 + 1)) := by
        apply Real.cos_pos_of_mem_Ioo
        constructor <;> norm_num at * <;> linarith
      linarith
    · norm_num; linarith

/-- These conditions determine `sqrt`: it is *the* principal square root. -/
theorem C36_sqrt_unique (z w : Cx ℝ) (h : w * w = z) (hw : 0 < w.re ∨ (w.re = 0 ∧ 0 ≤ w.im)) : w = z.sqrt := by
  have h1 : (w - z.sqrt) * (w + z.sqrt) = 0 := by
    apply toC_injective
    have e1 := congrArg toC h
    have e2 := congrArg toC (C36_sqrt_squared z)
    simp only [toC_mul, toC_add, toC_sub, toC_zero] at *
    linear_combination e1 - e2
  have h2 : w.toC = z.sqrt.toC ∨ w.toC = -z.sqrt.toC := by
    have := congrArg toC h1
    simp only [toC_mul, toC_add, toC_sub, toC_zero] at this
    rcases mul_eq_zero.mp this with h | h
    · left; linear_combination h
    · right; linear_combination h
  rcases h2 with h2 | h2
  · exact toC_injective h2
  · have hr := C36_sqrt_re_nonneg z
    have hp := C36_sqrt_principal z
    have e1 : w.re = -z.sqrt.re := congrArg Complex.re h2
    have e2 : w.im = -z.sqrt.im := congrArg Complex.im h2
    rcases hw with hw | ⟨hw, hw2⟩
    · linarith
    · have h0 : z.sqrt.re = 0 := by linarith
      have := hp h0
      ext <;> linarith

/-- `cbrt` cubes to its argument. -/
theorem C36_cbrt_cubed (z : Cx ℝ) : z.cbrt * z.cbrt * z.cbrt = z := by
  apply toC_injective
  have h : z.cbrt = fromPolarDecomposition (fcbrt z.norm) ⟨z.arg / 3⟩ := by
    have : (1 + 1 + 1 : ℝ) = 3 := by norm_num
    simp only [Cx.cbrt, polarDecomposition, this]; rfl
  have hc : fcbrt z.norm * fcbrt z.norm * fcbrt z.norm = z.norm := by
    have h0 := norm_nonneg z
    have : fcbrt z.norm = z.norm ^ (1 / 3 : ℝ) := if_pos h0
    rw [this, ← Real.rpow_add_of_nonneg h0 (by norm_num) (by norm_num),
      ← Real.rpow_add_of_nonneg h0 (by norm_num) (by norm_num)]
    norm_num
  rw [toC_mul, toC_mul, h, toC_fromPolar]
  have e : ∀ a b : ℂ, a * b * (a * b) * (a * b) = a * a * a * (b * b * b) := fun a b => by ring
  rw [e, ← Complex.ofReal_mul, ← Complex.ofReal_mul, hc, ← Complex.exp_add, ← Complex.exp_add]
  have : ((z.arg / 3 : ℝ) : ℂ) * Complex.I + ((z.arg / 3 : ℝ) : ℂ) * Complex.I
      + ((z.arg / 3 : ℝ) : ℂ) * Complex.I = z.arg * Complex.I := by
    push_cast; ring
  rw [this, norm_eq, arg_eq]
  exact Complex.norm_mul_exp_arg_mul_I _

/-- ... and is the cube root whose argument is a third of the principal argument. -/
theorem C36_cbrt_principal (z : Cx ℝ) (hz : z ≠ 0) :
    z.cbrt.arg = z.arg / 3 ∧ -(Real.pi / 3) < z.cbrt.arg ∧ z.cbrt.arg ≤ Real.pi / 3 := by
  have h1 : -Real.pi < z.arg := Complex.neg_pi_lt_arg _
  have h2 : z.arg ≤ Real.pi := Complex.arg_le_pi _
  have hpi := Real.pi_pos
  have h3 : (1 + 1 + 1 : ℝ) = 3 := by norm_num
  have h0 := norm_pos hz
  have hc : 0 < fcbrt z.norm := by
    have : fcbrt z.norm = z.norm ^ (1 / 3 : ℝ) := if_pos h0.le
    rw [this]; positivity
  have e : z.cbrt.arg = z.arg / 3 := by
    have := C36_polar_unique (fcbrt z.norm) ⟨z.arg / 3⟩ hc (by change -Real.pi < z.arg / 3; linarith)
      (by change z.arg / 3 ≤ Real.pi; linarith)
    have h4 : z.cbrt = fromPolarDecomposition (fcbrt z.norm) ⟨z.arg / 3⟩ := by
      simp only [Cx.cbrt, polarDecomposition, h3]; rfl
    rw [h4]
    exact congrArg (fun q : ℝ × Radians ℝ => q.2.val) this
  refine ⟨e, ?_, ?_⟩ <;> rw [e] <;> linarith

/-- the real cube root the library relies on is the inverse of cubing, negative numbers included -/
theorem C36_real_cbrt (x : ℝ) : fcbrt x * fcbrt x * fcbrt x = x := by
  have key : ∀ y : ℝ, 0 ≤ y → y ^ (1 / 3 : ℝ) * y ^ (1 / 3 : ℝ) * y ^ (1 / 3 : ℝ) = y := fun y hy => by
    rw [← pow_two, ← pow_succ, ← Real.rpow_natCast, ← Real.rpow_mul hy]; norm_num
  show (if 0 ≤ x then _ else _) * (if 0 ≤ x then _ else _) * (if 0 ≤ x then _ else _) = x
  split_ifs with h
  · exact key x h
  · have := key (-x) (by linarith)
    linarith

/-- `exp2 z = exp(z ln 2)` -/
theorem C36_exp2 (z : Cx ℝ) : z.exp2 = (z * Real.log 2).exp := by
  have h : (2 : ℝ) ^ z.re = Real.exp (z.re * Real.log 2) := by
    rw [Real.rpow_def_of_pos (by norm_num), mul_comm]
  ext <;> simp [exp2, fromPolarDecomposition, Cx.exp, h]

theorem C36_exp2_cpow (z : Cx ℝ) : z.exp2.toC = (2 : ℂ) ^ z.toC := by
  rw [C36_exp2, toC_exp, toC_mulS, Complex.cpow_def_of_ne_zero (by norm_num), mul_comm, Complex.ofReal_log (by norm_num)]
  norm_num

/-- `log(base)`, `log2` and `log10` are quotients of logarithms. -/
theorem C36_log (z : Cx ℝ) (b : ℝ) : z.log b = z.ln / Real.log b := by
  ext <;> simp [Cx.log, ln, polarDecomposition, Real.logb]

theorem C36_log2 (z : Cx ℝ) : z.log2 = z.log 2 := by rw [C36_log]; rfl
theorem C36_log10 (z : Cx ℝ) : z.log10 = z.log 10 := by rw [C36_log]; rfl

/-- `base^(log_base z) = z` -/
theorem C36_log_inverse (z : Cx ℝ) (hz : z ≠ 0) (b : ℝ) (hb : 0 < b) (hb1 : b ≠ 1) :
    (z.log b * Real.log b).exp = z := by
  have h : Real.log b ≠ 0 := by
    intro h
    rcases Real.log_eq_zero.mp h with h | h | h <;> first | linarith | exact hb1 h
  have : z.log b * Real.log b = z.ln := by
    rw [C36_log]; ext <;> simp <;> field_simp
  rw [this, C36_exp_ln z hz]

theorem C36_exp2_log2 (z : Cx ℝ) (hz : z ≠ 0) : z.log2.exp2 = z := by
  rw [C36_exp2, C36_log2, C36_log_inverse z hz 2 (by norm_num) (by norm_num)]

/-- `powf` and `powc` are the principal complex power. -/
theorem C36_powc (z w : Cx ℝ) (hz : z ≠ 0) : (z.powc w).toC = z.toC ^ w.toC := by
  rw [Complex.cpow_def_of_ne_zero (toC_ne_zero.mpr hz)]
  unfold powc
  split_ifs with h
  · have : w = 0 := by simpa [isZero, Cx.ext_iff] using h
    subst this; simp [identity, toC_new, Complex.ext_iff]
  · rw [toC_exp, toC_mul, toC_ln, mul_comm]

theorem C36_powf (z : Cx ℝ) (t : ℝ) (hz : z ≠ 0) :
    (z.powf t).toC = z.toC ^ (t : ℂ) ∧ z.powf t = z.powc (fromReal t) := by
  have h : (z.powf t).toC = z.toC ^ (t : ℂ) := by
    rw [Complex.cpow_def_of_ne_zero (toC_ne_zero.mpr hz), powf, toC_exp, toC_mulS, toC_ln]
  exact ⟨h, toC_injective (by rw [h, C36_powc z _ hz]; rfl)⟩

/-- Exponent zero gives one for every base, zero included. -/
theorem C36_powc_zero (z : Cx ℝ) : z.powc 0 = 1 := by simp [powc, isZero]; rfl

theorem C36_powf_add (z : Cx ℝ) (s t : ℝ) : z.powf (s + t) = z.powf s * z.powf t := by
  rw [powf, powf, powf, ← C36_exp_add]; congr 1; ext <;> simp <;> ring

theorem C36_powf_one (z : Cx ℝ) (hz : z ≠ 0) : z.powf 1 = z := by
  have : z.ln * (1 : ℝ) = z.ln := by ext <;> simp
  rw [powf, this, C36_exp_ln z hz]

example : (⟨-4, 0⟩ : Cx ℝ).sqrt = ⟨0, 2⟩ :=
  (C36_sqrt_unique _ _ (by ext <;> norm_num) (by norm_num)).symm
example : (⟨-3, 4⟩ : Cx ℝ).sqrt = ⟨1, 2⟩ :=
  (C36_sqrt_unique _ _ (by ext <;> norm_num) (by norm_num)).symm
example : (⟨-1, 0⟩ : Cx ℝ).ln = ⟨0, Real.pi⟩ := by
  ext
  · simp [ln, norm_def, normSquared]
  · simp only [ln, arg_eq, new_im]
    rw [show (⟨-1, 0⟩ : Cx ℝ).toC = -1 from by apply Complex.ext <;> simp]
    exact Complex.arg_neg_one
example : (⟨0, Real.pi⟩ : Cx ℝ).exp = ⟨-1, 0⟩ := by ext <;> simp [Cx.exp]

end Cgl

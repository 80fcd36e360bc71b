import Verif.Props.C98_ComplexFunctions
import Verif.Lemmas.Num64
import Verif.Lemmas.Grid

/-!
# C101 - the hyperbolic tangent and the inverse hyperbolic sine of complex numbers in `f64`

The tangent is accurate as long as its denominator does not cancel and the hyperbolic cosine of twice the real part does not overflow; where that
overflows, the result is not a number although the exact value is one. The inverse hyperbolic sine is accurate in the right half plane; for large
negative numbers its argument cancels to zero and the result is infinite.
-/

namespace Cgl
open Ieee FloatFns FloatSpecial Spec

/-! ### the hyperbolic tangent -/

/-- the hyperbolic tangent by the functions of twice the parts -/
theorem complex_tanh {ζ : ℂ} (h : 0 < Real.cosh (2 * ζ.re) + Real.cos (2 * ζ.im)) :
    Complex.tanh ζ = ⟨Real.sinh (2 * ζ.re) / (Real.cosh (2 * ζ.re) + Real.cos (2 * ζ.im)),
      Real.sin (2 * ζ.im) / (Real.cosh (2 * ζ.re) + Real.cos (2 * ζ.im))⟩ := by
  obtain ⟨x, y⟩ := ζ
  simp only at h ⊢
  rw [Complex.tanh_eq_sinh_div_cosh, complex_cosh, complex_sinh]
  rw [Real.cosh_two_mul, Real.cos_two_mul] at h ⊢
  rw [Real.sinh_two_mul, Real.sin_two_mul]
  simp only
  have e1 := Real.cosh_sq x
  have e2 := Real.sin_sq_add_cos_sq y
  generalize Real.cosh x = a at *
  generalize Real.sinh x = b at *
  generalize Real.cos y = c at *
  generalize Real.sin y = s at *
  have hD : a ^ 2 + b ^ 2 + (2 * c ^ 2 - 1) = 2 * (b ^ 2 + c ^ 2) := by rw [e1]; ring
  rw [hD] at h ⊢
  have hn : b ^ 2 + c ^ 2 ≠ 0 := fun h0 => by rw [h0] at h; simp at h
  have hne : (⟨a * c, b * s⟩ : ℂ) ≠ 0 := by
    intro h0
    have h1 : a * c = 0 := congrArg Complex.re h0
    have h2 : b * s = 0 := congrArg Complex.im h0
    have h3 : b ^ 2 + c ^ 2 = 0 := by
      have k1 : a ^ 2 * c ^ 2 = 0 := by rw [← mul_pow, h1]; ring
      have k2 : b ^ 2 * s ^ 2 = 0 := by rw [← mul_pow, h2]; ring
      rw [e1] at k1
      have : s ^ 2 = 1 - c ^ 2 := by linarith
      rw [this] at k2
      linarith
    exact hn h3
  rw [div_eq_iff hne]
  apply Complex.ext
  · simp only [Complex.mul_re]
    field_simp
    have : a ^ 2 - s ^ 2 = b ^ 2 + c ^ 2 := by linarith
    linear_combination (-b * c) * this
  · simp only [Complex.mul_im]
    field_simp

/-- doubling is exact -/
theorem double64 {x : Ieee f64} (hx : x.Finite) (h : |x.val| ≤ 2 ^ (1000 : ℤ)) : (x + x).Finite ∧ (x + x).val = 2 * x.val := by
  have h1 : f64.fl (x.val + x.val) = 2 * x.val := by
    rw [← two_mul]
    exact Rounding.flEven_eq_of_grid (Rounding.OnGrid.double (Rounding.grid_of_flEven_eq (by norm_num) (val_rep x)))
  have h2 : |2 * x.val| ≤ f64.big := by
    refine le_trans ?_ (two_zpow_le_big (k := 1001) (by norm_num))
    rw [abs_mul, abs_two, show (1001 : ℤ) = 1 + 1000 by norm_num, zpow_add₀ two_ne_zero, zpow_one]
    exact mul_le_mul_of_nonneg_left h two_pos.le
  have h3 := finite_add_of hx hx (by rw [h1]; exact h2)
  exact ⟨h3, by rw [val_add h3, h1]⟩

theorem tanh_finite [Lib f64] {z : Cx (Ieee f64)} (hre : z.re.Finite) :
    z.tanh = Cx.new (fsinh (z.re + z.re) / (fcosh (z.re + z.re) + fcos (z.im + z.im)))
      (fsin (z.im + z.im) / (fcosh (z.re + z.re) + fcos (z.im + z.im))) := by
  obtain ⟨re, im⟩ := z
  obtain ⟨s, m, h, rfl⟩ := hre
  rfl

/-- **The hyperbolic tangent**, for a real part of at most 300: where the denominator is at least `1 / K` of what it is without cancellation, the
error is `2^-47 K²`. -/
theorem C101_tanh [Lib f64] {e : ℝ} (he : ComplexLibrary f64 e 1000 600) (hed : e ≤ 2 ^ (-50 : ℤ)) {z : Cx (Ieee f64)}
    (hre : z.re.Finite) (him : z.im.Finite) (h1 : |z.re.val| ≤ 300) (h2 : |z.im.val| ≤ 500) {K : ℝ} (hK : K ≤ 2 ^ (30 : ℤ))
    (hD : Real.cosh (2 * z.re.val) ≤ K * (Real.cosh (2 * z.re.val) + Real.cos (2 * z.im.val))) :
    CxWithin z.tanh (Complex.tanh (complexOf z)) (2 ^ (-47 : ℤ) * K ^ 2) := by
  have hbig : (600 : ℝ) ≤ 2 ^ (1000 : ℤ) := le_trans (by norm_num) (zpow_le_zpow_right₀ one_le_two (show (10 : ℤ) ≤ 1000 by norm_num))
  obtain ⟨d1, d2⟩ := double64 hre (le_trans h1 (le_trans (by norm_num) hbig))
  obtain ⟨d3, d4⟩ := double64 him (le_trans h2 (le_trans (by norm_num) hbig))
  have hu : f64.u ≤ 1 / 1000000 := by change (2 : ℝ) ^ (-53 : ℤ) ≤ _; norm_num
  have b1 : |(z.re + z.re).val| ≤ 600 := by rw [d2, abs_mul, abs_two]; linarith
  have b2 : |(z.im + z.im).val| ≤ 1000 := by rw [d4, abs_mul, abs_two]; linarith
  have c1 := he.cosh _ d1 b1
  have c2 := he.sinh _ d1 b1
  obtain ⟨c3, c4⟩ := he.sincos _ d3 b2
  have hF := fits_cosh b1
  have hrng : Real.cosh (z.re + z.re).val ≤ 2 ^ (900 : ℤ) := cosh_large b1
  have habs := abs_sinh_le (z.re + z.re).val
  rw [d2] at c1 c2 hF hrng habs
  rw [d4] at c3 c4
  have hc1 := Real.one_le_cosh (2 * z.re.val)
  have k1 := abs_le.mp (Real.abs_cos_le_one (2 * z.im.val))
  have k2 := Real.abs_sin_le_one (2 * z.im.val)
  rw [tanh_finite hre]
  obtain ⟨C, hC⟩ : ∃ C, C = Real.cosh (2 * z.re.val) := ⟨_, rfl⟩
  obtain ⟨D, hDe⟩ : ∃ D, D = Real.cosh (2 * z.re.val) + Real.cos (2 * z.im.val) := ⟨_, rfl⟩
  rw [← hDe] at hD
  rw [← hC] at c1 c2 hF hrng habs hc1 hD hDe
  have hC0 : 0 < C := by linarith
  have hDn : 0 ≤ D := by rw [hDe]; linarith
  have hD0 : 0 < D := by
    rcases hDn.eq_or_lt with h | h
    · rw [← h, mul_zero] at hD; linarith
    · exact h
  have hK0 : 1 / 2 ≤ K := by
    have : D ≤ 2 * C := by rw [hDe]; linarith
    by_contra hlt
    rw [not_le] at hlt
    have := mul_lt_mul_of_pos_right hlt hD0
    linarith
  rw [complex_tanh (ζ := complexOf z) (by change 0 < Real.cosh (2 * z.re.val) + Real.cos (2 * z.im.val); rw [← hC, ← hDe]; exact hD0)]
  change CxWithin _ ⟨Real.sinh (2 * z.re.val) / (Real.cosh (2 * z.re.val) + Real.cos (2 * z.im.val)),
    Real.sin (2 * z.im.val) / (Real.cosh (2 * z.re.val) + Real.cos (2 * z.im.val))⟩ _
  rw [← hC, ← hDe]
  obtain ⟨d, hd⟩ : ∃ d : ℝ, d = 2 ^ (-50 : ℤ) := ⟨_, rfl⟩
  have hd0 : 0 < d := by rw [hd]; positivity
  have hdu : f64.u = d / 8 := by rw [hd]; change (2 : ℝ) ^ (-53 : ℤ) = _; norm_num
  have hdK : d * K ≤ 1 / 1000000 := by
    have := mul_le_mul_of_nonneg_left hK hd0.le
    refine this.trans ?_
    rw [hd]; norm_num
  rw [← hd] at hed
  have hd6 : d ≤ 1 / 1000000 := by rw [hd]; norm_num
  have w1 : Sc (2 * C) (fcosh (z.re + z.re)) C (d / 2) := ⟨c1.1, c1.2.trans (by have := mul_le_mul_of_nonneg_right hed hC0.le; linarith)⟩
  have w2 : Sc (2 * C) (fcos (z.im + z.im)) (Real.cos (2 * z.im.val)) (d / 2) := ⟨c4.1, c4.2.trans (by
    have := mul_le_mul_of_nonneg_left hc1 hd0.le; linarith)⟩
  have hF2 : Fits f64 (2 * C) := fits64 (by
      refine le_trans ?_ (show (1 : ℝ) ≤ 2 * C by linarith)
      exact zpow_le_one_of_nonpos₀ one_le_two (by norm_num)) (by
      calc 2 * C ≤ 2 * 2 ^ (900 : ℤ) := mul_le_mul_of_nonneg_left hrng two_pos.le
        _ = 2 ^ (901 : ℤ) := by rw [show (901 : ℤ) = 1 + 900 by norm_num, zpow_add₀ two_ne_zero, zpow_one]
        _ ≤ _ := zpow_le_zpow_right₀ one_le_two (by norm_num))
  have w3 := w1.add hu hF2 w2 (by rw [← hDe, abs_of_pos hD0]; linarith) (by linarith)
  rw [← hDe] at w3
  have w4 : Sc D (fcosh (z.re + z.re) + fcos (z.im + z.im)) D (26 / 10 * d * K) := w3.rescale (by
    rw [hdu]
    have := mul_le_mul_of_nonneg_left hD hd0.le
    have h0 : 0 ≤ d * (K * D) := by positivity
    nlinarith)
  have w5 : Sc C (fsinh (z.re + z.re)) (Real.sinh (2 * z.re.val)) d := ⟨c2.1, c2.2.trans (mul_le_mul_of_nonneg_right hed hC0.le)⟩
  have w6 : Sc C (fsin (z.im + z.im)) (Real.sin (2 * z.im.val)) d := ⟨c3.1, c3.2.trans (hed.trans (by
    have := mul_le_mul_of_nonneg_left hc1 hd0.le; linarith))⟩
  have hq1 : C / D ≤ K := by rw [div_le_iff₀ hD0]; exact hD
  have hq2 : 1 / 2 ≤ C / D := by rw [le_div_iff₀ hD0, hDe]; linarith
  have hFq : Fits f64 (C / D) := fits64 (le_trans (le_trans (zpow_le_zpow_right₀ one_le_two (show (-1020 : ℤ) ≤ -1 by norm_num)) (by norm_num)) hq2)
    ((hq1.trans hK).trans (zpow_le_zpow_right₀ one_le_two (by norm_num)))
  have w7 := w5.div hu hD0 hFq habs w4 (by linarith) (by linarith)
  have w8 := w6.div hu hD0 hFq (k2.trans hc1) w4 (by linarith) (by linarith)
  have hfin : (101 / 100 * (d + 26 / 10 * d * K) + 203 / 100 * f64.u) * (C / D) ≤ 2 ^ (-47 : ℤ) * K ^ 2 := by
    have e47 : (2 : ℝ) ^ (-47 : ℤ) = 8 * d := by rw [hd]; norm_num
    rw [e47, hdu]
    have h0 : 101 / 100 * (d + 26 / 10 * d * K) + 203 / 100 * (d / 8) ≤ 8 * d * K := by
      have := mul_le_mul_of_nonneg_left hK0 hd0.le
      linarith
    calc _ ≤ 8 * d * K * (C / D) := mul_le_mul_of_nonneg_right h0 (by linarith)
      _ ≤ 8 * d * K * K := mul_le_mul_of_nonneg_left hq1 (by have : 0 ≤ K := by linarith
                                                             positivity)
      _ = _ := by ring
  exact ⟨⟨w7.1, w7.2.trans hfin⟩, ⟨w8.1, w8.2.trans hfin⟩⟩

/-- **The tangent.** -/
theorem C101_tan [Lib f64] {e : ℝ} (he : ComplexLibrary f64 e 1000 600) (hed : e ≤ 2 ^ (-50 : ℤ)) {z : Cx (Ieee f64)}
    (hre : z.re.Finite) (him : z.im.Finite) (h1 : |z.im.val| ≤ 300) (h2 : |z.re.val| ≤ 500) {K : ℝ} (hK : K ≤ 2 ^ (30 : ℤ))
    (hD : Real.cosh (2 * z.im.val) ≤ K * (Real.cosh (2 * z.im.val) + Real.cos (2 * z.re.val))) :
    CxWithin z.tan (Complex.tan (complexOf z)) (2 ^ (-47 : ℤ) * K ^ 2) := by
  have h := C101_tanh he hed (z := Cx.new (-z.im) z.re) (cx_finite_neg him) hre (by change |(-z.im).val| ≤ _; rw [val_neg, abs_neg]; exact h1) h2
    (K := K) hK (by
      change Real.cosh (2 * (-z.im).val) ≤ K * (Real.cosh (2 * (-z.im).val) + Real.cos (2 * z.re.val))
      rw [val_neg, mul_neg, Real.cosh_neg]; exact hD)
  have e1 : complexOf (Cx.new (-z.im) z.re) = complexOf z * Complex.I := by
    apply Complex.ext
    · rw [Complex.mul_I_re]; exact val_neg _
    · rw [Complex.mul_I_im]; rfl
  rw [e1, Complex.tanh_mul_I] at h
  obtain ⟨⟨f1, f2⟩, f3, f4⟩ := h
  rw [Complex.mul_I_re] at f2
  rw [Complex.mul_I_im] at f4
  refine ⟨⟨f3, f4⟩, cx_finite_neg f1, ?_⟩
  change |(-(Cx.tanh (Cx.new (-z.im) z.re)).re).val - _| ≤ _
  rw [val_neg, ← abs_neg]
  rw [show -(-(Cx.tanh (Cx.new (-z.im) z.re)).re.val - (Complex.tan (complexOf z)).im) =
    (Cx.tanh (Cx.new (-z.im) z.re)).re.val - -(Complex.tan (complexOf z)).im by ring]
  exact f2

/-- A library whose hyperbolic functions are infinite where their exact values are beyond the largest number by far. -/
def Spec.Overflows [Lib f64] : Prop := ∀ x : Ieee f64, x.Finite → 2 ^ (1026 : ℤ) ≤ Real.sinh x.val → fcosh x = inf false ∧ fsinh x = inf false

theorem exp_712 : (2 : ℝ) ^ (1027 : ℤ) + 1 ≤ Real.exp 712 := by
  have h := Real.log_two_lt_d9
  have h1 : (2 : ℝ) ^ (1027 : ℕ) ≤ Real.exp (1027 * (0.6931471808 : ℝ)) := by
    rw [← Real.exp_log (show (0 : ℝ) < 2 ^ (1027 : ℕ) by positivity), Real.log_pow]
    exact Real.exp_le_exp.mpr (by push_cast; linarith)
  have h2 : Real.exp (1027 * (0.6931471808 : ℝ)) + 1 ≤ Real.exp 712 := by
    rw [show (712 : ℝ) = 1027 * 0.6931471808 + (712 - 1027 * 0.6931471808) by ring, Real.exp_add]
    have := Real.add_one_le_exp ((712 : ℝ) - 1027 * 0.6931471808)
    have h3 := Real.add_one_le_exp (1027 * (0.6931471808 : ℝ))
    have h4 := mul_le_mul_of_nonneg_left this (Real.exp_pos (1027 * (0.6931471808 : ℝ))).le
    norm_num at h3 h4 ⊢
    clear h1 h this
    generalize Real.exp (111228461669 / 156250000) = E at *
    generalize E * Real.exp (21538331 / 156250000) = F at *
    linarith
  rw [show (1027 : ℤ) = ((1027 : ℕ) : ℤ) by rfl, zpow_natCast]
  linarith

/-- The exact hyperbolic tangent is one, to a thousand binary digits. -/
theorem tanh_near_one {ζ : ℂ} (h : 356 ≤ ζ.re) : ‖Complex.tanh ζ - 1‖ ≤ 2 ^ (-1000 : ℤ) := by
  have hE : (2 : ℝ) ^ (1027 : ℤ) + 1 ≤ ‖Complex.exp (2 * ζ)‖ := by
    rw [Complex.norm_exp]
    refine exp_712.trans (Real.exp_le_exp.mpr ?_)
    simp only [Complex.mul_re, Complex.re_ofNat, Complex.im_ofNat]; linarith
  have hn : Complex.exp ζ ≠ 0 := Complex.exp_ne_zero ζ
  have hne : Complex.exp (2 * ζ) + 1 ≠ 0 := by
    intro h0
    have : Complex.exp (2 * ζ) = -1 := by linear_combination h0
    rw [this, norm_neg, norm_one] at hE
    have : (0 : ℝ) < 2 ^ (1027 : ℤ) := by positivity
    exact absurd hE (not_le.mpr (lt_add_of_pos_left 1 this))
  have e : Complex.tanh ζ - 1 = -2 / (Complex.exp (2 * ζ) + 1) := by
    have h2 : Complex.exp (2 * ζ) = Complex.exp ζ * Complex.exp ζ := by rw [two_mul, Complex.exp_add]
    have h3 : Complex.exp ζ * Complex.exp (-ζ) = 1 := by rw [← Complex.exp_add, add_neg_cancel, Complex.exp_zero]
    have hc : Complex.exp ζ + Complex.exp (-ζ) ≠ 0 := by
      intro h0
      apply hne
      rw [h2]
      linear_combination Complex.exp ζ * h0 - h3
    rw [Complex.tanh_eq_sinh_div_cosh, Complex.sinh, Complex.cosh, div_div_div_cancel_right₀ two_ne_zero, div_sub_one hc, div_eq_div_iff hc hne, h2]
    linear_combination (-2 * Complex.exp ζ) * h3
  have hb : (2 : ℝ) ^ (1027 : ℤ) ≤ ‖Complex.exp (2 * ζ) + 1‖ := by
    have := norm_sub_le (Complex.exp (2 * ζ) + 1) 1
    rw [add_sub_cancel_right, norm_one] at this
    linarith
  rw [e, norm_div, norm_neg, Complex.norm_two]
  calc 2 / ‖Complex.exp (2 * ζ) + 1‖ ≤ 2 / 2 ^ (1027 : ℤ) := div_le_div_of_nonneg_left two_pos.le (by positivity) hb
    _ = 2 ^ (1 - 1027 : ℤ) := by rw [zpow_sub₀ two_ne_zero, zpow_one]
    _ ≤ _ := zpow_le_zpow_right₀ one_le_two (by norm_num)

/-- **A large real part** makes the hyperbolic tangent not a number, although the exact value is one to a thousand digits: the code divides the infinite
hyperbolic sine by the infinite hyperbolic cosine. -/
theorem C101_tanh_overflow_fails [Libm f64] (hO : Spec.Overflows) {z : Cx (Ieee f64)} (hre : z.re.Finite) (him : z.im.Finite) (h : 356 ≤ z.re.val) :
    z.tanh.re = nan ∧ ‖Complex.tanh (complexOf z) - 1‖ ≤ 2 ^ (-1000 : ℤ) := by
  refine ⟨?_, tanh_near_one h⟩
  rw [tanh_finite hre]
  change fsinh (z.re + z.re) / (fcosh (z.re + z.re) + fcos (z.im + z.im)) = nan
  have hcs : fcosh (z.re + z.re) = inf false ∧ fsinh (z.re + z.re) = inf false := by
    rcases le_or_gt |z.re.val| (2 ^ (1000 : ℤ)) with hb | hb
    · obtain ⟨d1, d2⟩ := double64 hre hb
      refine hO _ d1 ?_
      rw [d2]
      have h1 : Real.exp 712 ≤ Real.exp (2 * z.re.val) := Real.exp_le_exp.mpr (by linarith)
      have h2 : Real.exp (-(2 * z.re.val)) ≤ 1 := by rw [Real.exp_le_one_iff]; linarith
      have h3 := exp_712
      rw [Real.sinh_eq]
      have : (2 : ℝ) ^ (1027 : ℤ) = 2 * 2 ^ (1026 : ℤ) := by rw [show (1027 : ℤ) = 1 + 1026 by norm_num, zpow_add₀ two_ne_zero, zpow_one]
      rw [this] at h3
      linarith
    · obtain ⟨s, m, hm, e⟩ := hre
      rw [e] at h hb ⊢
      by_cases hf : (fin s m hm + fin s m hm : Ieee f64).Finite
      · refine hO _ hf ?_
        have h5 : (fin s m hm + fin s m hm : Ieee f64).val = 2 * (fin s m hm : Ieee f64).val := by
          rw [val_add hf, ← two_mul]
          exact Rounding.flEven_eq_of_grid (Rounding.OnGrid.double (Rounding.grid_of_flEven_eq (by norm_num) (val_rep (fin s m hm : Ieee f64))))
        rw [h5]
        have h1 : Real.exp 712 ≤ Real.exp (2 * (fin s m hm : Ieee f64).val) := Real.exp_le_exp.mpr (by linarith)
        have h2 : Real.exp (-(2 * (fin s m hm : Ieee f64).val)) ≤ 1 := by rw [Real.exp_le_one_iff]; linarith
        have h3 := exp_712
        rw [Real.sinh_eq]
        have : (2 : ℝ) ^ (1027 : ℤ) = 2 * 2 ^ (1026 : ℤ) := by rw [show (1027 : ℤ) = 1 + 1026 by norm_num, zpow_add₀ two_ne_zero, zpow_one]
        rw [this] at h3
        linarith
      · have hs : s = false := by
          cases s
          · rfl
          · have h6 : (356 : ℝ) ≤ -m := h
            have := hm.1
            linarith
        subst hs
        have h7 : (fin false m hm + fin false m hm : Ieee f64) = inf false := by
          change Ieee.round (false && false) (m + m) = _
          have hm0 : 0 < m + m := by have h6 : (356 : ℝ) ≤ m := h; linarith
          have hnf : ¬ f64.fl |m + m| ≤ f64.big := fun hle => hf (by
            change (Ieee.round (false && false) (m + m) : Ieee f64).Finite
            exact finite_round hle)
          simp only [Ieee.round, dif_neg hnf, if_neg hm0.ne', decide_eq_false (not_lt.mpr hm0.le)]
        rw [h7]
        exact ⟨Libm.cosh_inf _, Libm.sinh_inf _⟩
  rw [hcs.1, hcs.2]
  have : ∃ y : Ieee f64, fcos (z.im + z.im) = y := ⟨_, rfl⟩
  obtain ⟨y, hy⟩ := this
  rw [hy]
  cases y with
  | nan => rfl
  | inf s => cases s <;> rfl
  | fin s m h => rfl

end Cgl

import Verif.Props.C101_Hyperbolic
import Mathlib.Analysis.Calculus.MeanValue
import Mathlib.Analysis.Complex.Convex
import Mathlib.Analysis.SpecialFunctions.Complex.LogDeriv

/-! # C101 - the inverse hyperbolic sine of complex numbers in `f64` -/

namespace Cgl
open Ieee FloatFns FloatSpecial Spec

/-! ### large negative numbers -/

theorem Is.wide_add {x y : Ieee f64} {a b c : ℝ} (hx : Is x a) (hy : Is y b) (h : f64.fl (a + b) = c) (hc : |c| ≤ 2 ^ (1000 : ℤ)) : Is (x + y) c := by
  obtain ⟨hx, rfl⟩ := hx
  obtain ⟨hy, rfl⟩ := hy
  have := finite_add_of hx hy (by rw [h]; exact hc.trans (two_zpow_le_big (by norm_num)))
  exact ⟨this, by rw [val_add this, h]⟩

theorem Is.wide_mul {x y : Ieee f64} {a b c : ℝ} (hx : Is x a) (hy : Is y b) (h : f64.fl (a * b) = c) (hc : |c| ≤ 2 ^ (1000 : ℤ)) : Is (x * y) c := by
  obtain ⟨hx, rfl⟩ := hx
  obtain ⟨hy, rfl⟩ := hy
  have := finite_mul_of hx hy (by rw [h]; exact hc.trans (two_zpow_le_big (by norm_num)))
  exact ⟨this, by rw [val_mul this, h]⟩

theorem Is.wide_sqrt [Lib f64] {x : Ieee f64} {a c : ℝ} (hx : Is x a) (ha : 0 ≤ a) (h : f64.fl (Real.sqrt a) = c) (hc : |c| ≤ 2 ^ (1000 : ℤ)) :
    Is (fsqrt x) c := by
  obtain ⟨hx, rfl⟩ := hx
  rw [Lib.sqrt_eq]
  have := finite_sqrt_of hx ha (by rw [h]; exact hc.trans (two_zpow_le_big (by norm_num)))
  exact ⟨this, by rw [(val_sqrt this).1, h]⟩

theorem Is.zeroS {x : Ieee f64} (hx : Is x 0) : ∃ s, x = zeroS s := by
  obtain ⟨⟨s, m, h, rfl⟩, h0⟩ := hx
  have : m = 0 := by cases s <;> simpa [Ieee.val, signed] using h0
  subst this
  exact ⟨s, rfl⟩

theorem is_zero_zeroS (s : Bool) : Is (zeroS s : Ieee f64) 0 := by
  refine ⟨⟨_, _, _, rfl⟩, ?_⟩
  cases s <;> simp [zeroS, Ieee.val, signed]

theorem asinh_finite [Lib f64] {z : Cx (Ieee f64)} (hre : z.re.Finite) (him : z.im.Finite) : z.asinh = (z + ((1 : Cx (Ieee f64)) + z * z).sqrt).ln := by
  obtain ⟨re, im⟩ := z
  obtain ⟨s, m, h, rfl⟩ := hre
  obtain ⟨t, k, h', rfl⟩ := him
  rfl

/-- the sum of one and a large power of two is that power -/
theorem one_absorbed {k : ℤ} (hk : 54 ≤ k) : f64.fl (1 + 2 ^ k) = 2 ^ k := by
  have h1 : (1 : ℝ) ≤ 2 ^ k := one_le_zpow₀ one_le_two (by omega)
  have e : (1 + (2 : ℝ) ^ k) * 2 ^ (52 - k) = 2 ^ (52 - k) + 2 ^ (52 : ℤ) := by
    rw [add_mul, one_mul, ← zpow_add₀ two_ne_zero]; congr 2; ring
  have hs : (2 : ℝ) ^ (52 - k) ≤ 2 ^ (-2 : ℤ) := zpow_le_zpow_right₀ one_le_two (by omega)
  have hs0 : (0 : ℝ) < 2 ^ (52 - k) := by positivity
  have hlt : (1 : ℝ) < 2 ^ k := one_lt_zpow₀ one_lt_two (by omega)
  have := fl64_eval (x := 1 + 2 ^ k) k (2 ^ 52) (by omega) (by linarith) (by rw [zpow_add₀ two_ne_zero, zpow_one]; linarith)
    (by rw [e]; push_cast; norm_num at hs ⊢; linarith) (by rw [e]; push_cast; norm_num at hs ⊢; linarith) (Or.inr (by decide))
  rw [this, show (((2 : ℤ) ^ 52 : ℤ) : ℝ) = 2 ^ (52 : ℤ) by norm_num, ← zpow_add₀ two_ne_zero]
  congr 1; ring

/-- **Large negative numbers**: the inverse hyperbolic sine of `-2^k`, from `-2^27` on, is minus infinity, because the sum of the number and its root
is zero. The exact value is finite: it is minus the inverse hyperbolic sine of `2^k`. -/
theorem C101_asinh_fails [Libm f64] {k : ℤ} (hk : 27 ≤ k) (hk2 : k ≤ 240) {z : Cx (Ieee f64)} (hre : Is z.re (-2 ^ k)) (him : Is z.im 0) :
    z.asinh.re = inf true := by
  have h2k : (2 : ℝ) ^ k * 2 ^ k = 2 ^ (2 * k) := by rw [← zpow_add₀ two_ne_zero]; congr 1; ring
  have h4k : (2 : ℝ) ^ (2 * k) * 2 ^ (2 * k) = 2 ^ (4 * k) := by rw [← zpow_add₀ two_ne_zero]; congr 1; ring
  have hb : ∀ {j : ℤ}, j ≤ 1000 → |(2 : ℝ) ^ j| ≤ 2 ^ (1000 : ℤ) := fun h => by
    rw [abs_of_pos (by positivity)]; exact zpow_le_zpow_right₀ one_le_two h
  have hr : ∀ {j : ℤ}, 0 ≤ j → f64.fl (2 ^ j) = 2 ^ j := fun h => fl64_two_zpow (by omega)
  have h0 : |(0 : ℝ)| ≤ 2 ^ (1000 : ℤ) := by rw [abs_zero]; positivity
  have f0 : f64.fl 0 = 0 := f64.zero
  -- the square
  have a1 : Is (z.re * z.re) (2 ^ (2 * k)) := hre.wide_mul hre (by rw [neg_mul_neg, h2k, hr (by omega)]) (hb (by omega))
  have a2 : Is (z.im * z.im) 0 := him.wide_mul him (by rw [mul_zero, f0]) h0
  have a3 : Is (z.re * z.im) 0 := hre.wide_mul him (by rw [mul_zero, f0]) h0
  have a4 : Is (z.im * z.re) 0 := him.wide_mul hre (by rw [zero_mul, f0]) h0
  have b1 : Is (z * z).re (2 ^ (2 * k)) := a1.wide_add a2.neg (by rw [neg_zero, add_zero, hr (by omega)]) (hb (by omega))
  have b2 : Is (z * z).im 0 := a3.wide_add a4 (by rw [add_zero, f0]) h0
  obtain ⟨q, hq⟩ : ∃ q, q = (1 : Cx (Ieee f64)) + z * z := ⟨_, rfl⟩
  have c1 : Is q.re (2 ^ (2 * k)) := by rw [hq]; exact Is.one.wide_add b1 (one_absorbed (by omega)) (hb (by omega))
  have c2 : Is q.im 0 := by rw [hq]; exact Is.zero.wide_add b2 (by rw [add_zero, f0]) h0
  -- its root
  have d1 : Is (q.re * q.re) (2 ^ (4 * k)) := c1.wide_mul c1 (by rw [h4k, hr (by omega)]) (hb (by omega))
  have d2 : Is (q.im * q.im) 0 := c2.wide_mul c2 (by rw [mul_zero, f0]) h0
  have d3 : Is q.normSquared (2 ^ (4 * k)) := d1.wide_add d2 (by rw [add_zero, hr (by omega)]) (hb (by omega))
  have s1 : Real.sqrt (2 ^ (4 * k)) = 2 ^ (2 * k) := by rw [← h4k]; exact Real.sqrt_mul_self (by positivity)
  have s2 : Real.sqrt (2 ^ (2 * k)) = 2 ^ k := by rw [← h2k]; exact Real.sqrt_mul_self (by positivity)
  have d4 : Is q.norm (2 ^ (2 * k)) := d3.wide_sqrt (by positivity) (by rw [s1, hr (by omega)]) (hb (by omega))
  have d5 : Is (fsqrt q.norm) (2 ^ k) := d4.wide_sqrt (by positivity) (by rw [s2, hr (by omega)]) (hb (by omega))
  obtain ⟨s, hs⟩ := c2.zeroS
  obtain ⟨hh, hqre⟩ := c1.pos_eq (by positivity)
  have d6 : q.arg = Ieee.zeroS s := by
    change fatan2 q.im q.re = _
    rw [hs]
    exact Libm.atan2_zero_pos s q.re (Or.inr ⟨_, _, hqre⟩)
  have d7 : Is (q.arg / (1 + 1)) 0 := by
    rw [d6]
    exact (is_zero_zeroS s).div (show Is ((1 : Ieee f64) + 1) 2 from Is.one.add Is.one (by
      rw [show (1 : ℝ) + 1 = 2 ^ (1 : ℤ) by norm_num, fl64_two_zpow (by norm_num)]; norm_num) (by norm_num)) two_ne_zero (by rw [zero_div, f0]) (by rw [abs_zero]; positivity)
  obtain ⟨t, ht⟩ := d7.zeroS
  have e1 : Is q.sqrt.re (2 ^ k) := by
    change Is (fsqrt q.norm * fcos (q.arg / (1 + 1))) _
    rw [ht, Libm.cos_zero]
    exact d5.wide_mul Is.one (by rw [mul_one, hr (by omega)]) (hb (by omega))
  have e2 : Is q.sqrt.im 0 := by
    change Is (fsqrt q.norm * fsin (q.arg / (1 + 1))) _
    rw [ht, Libm.sin_zero]
    exact d5.wide_mul (is_zero_zeroS t) (by rw [mul_zero, f0]) h0
  -- the sum
  have g1 : Is (z + q.sqrt).re 0 := hre.wide_add e1 (by rw [neg_add_cancel, f0]) h0
  have g2 : Is (z + q.sqrt).im 0 := him.wide_add e2 (by rw [add_zero, f0]) h0
  have g3 : Is (z + q.sqrt).normSquared 0 :=
    (g1.wide_mul g1 (by rw [mul_zero, f0]) h0).wide_add (g2.wide_mul g2 (by rw [mul_zero, f0]) h0) (by rw [add_zero, f0]) h0
  have g4 : Is (z + q.sqrt).norm 0 := g3.wide_sqrt le_rfl (by rw [Real.sqrt_zero, f0]) h0
  obtain ⟨r, hr'⟩ := g4.zeroS
  rw [asinh_finite hre.1 him.1, ← hq]
  change fln (z + q.sqrt).norm = _
  rw [hr']
  exact Libm.ln_zero r

/-- So it is with the inverse sine, on the imaginary axis: its imaginary part is infinite. -/
theorem C101_asin_fails [Libm f64] {k : ℤ} (hk : 27 ≤ k) (hk2 : k ≤ 240) {z : Cx (Ieee f64)} (hre : Is z.re 0) (him : Is z.im (2 ^ k)) :
    z.asin.im = inf false := by
  have h := C101_asinh_fails hk hk2 (z := Cx.new (-z.im) z.re) him.neg hre
  change -(Cx.asinh (Cx.new (-z.im) z.re)).re = _
  rw [h]
  rfl

/-! ### the right half plane -/

/-- the principal square root -/
theorem root_facts {c : ℂ} (h : c ≠ 0) : (c ^ ((1 / 2 : ℝ) : ℂ)) * (c ^ ((1 / 2 : ℝ) : ℂ)) = c ∧ 0 ≤ (c ^ ((1 / 2 : ℝ) : ℂ)).re := by
  refine ⟨?_, ?_⟩
  · rw [← Complex.cpow_add _ _ h, ← Complex.ofReal_add]
    norm_num
  · rw [polar_cpow h]
    have := abs_le.mp (Complex.abs_arg_le_pi c)
    exact mul_nonneg (by positivity) (Real.cos_nonneg_of_mem_Icc ⟨by linarith, by linarith⟩)

/-- the square of the real part of a root -/
theorem root_re_sq {B c : ℂ} (h : B * B = c) : 2 * B.re ^ 2 = ‖c‖ + c.re := by
  have h1 : ‖c‖ = B.re ^ 2 + B.im ^ 2 := by
    rw [← h, norm_mul, ← sq, Complex.sq_norm, Complex.normSq_apply]; ring
  have h2 : c.re = B.re ^ 2 - B.im ^ 2 := by rw [← h, Complex.mul_re]; ring
  rw [h1, h2]; ring

/-- logarithms of numbers with real parts of at least `m` -/
theorem log_sub_le {w W : ℂ} {m : ℝ} (hm : 0 < m) (h1 : m ≤ w.re) (h2 : m ≤ W.re) : ‖Complex.log w - Complex.log W‖ ≤ ‖w - W‖ / m := by
  have hs : Convex ℝ {z : ℂ | m ≤ z.re} := by
    have := convex_halfSpace_re_ge m
    exact this
  have := hs.norm_image_sub_le_of_norm_hasDerivWithin_le (f := Complex.log) (f' := fun z => z⁻¹) (C := m⁻¹) (x := W) (y := w)
    (fun z (hz : m ≤ z.re) => (Complex.hasDerivAt_log (Complex.mem_slitPlane_iff.mpr (Or.inl (by linarith)))).hasDerivWithinAt)
    (fun z (hz : m ≤ z.re) => by
      rw [norm_inv]
      exact inv_anti₀ hm (hz.trans ((le_abs_self _).trans (Complex.abs_re_le_norm z)))) h2 h1
  rw [div_eq_mul_inv, mul_comm]
  exact this

/-- a difference of complex numbers by its parts -/
theorem norm_le_parts {ζ : ℂ} {ε : ℝ} (h1 : |ζ.re| ≤ ε) (h2 : |ζ.im| ≤ ε) : ‖ζ‖ ≤ 2 * ε := by
  have := Complex.norm_le_abs_re_add_abs_im ζ
  linarith

section
variable [Lib f64] {e : ℝ} (he : ComplexLibrary f64 e 1000 600) (hed : e ≤ 2 ^ (-50 : ℤ)) {z : Cx (Ieee f64)}
  (hre : z.re.Finite) (him : z.im.Finite)
include he hed hre him

set_option maxHeartbeats 1000000 in
/-- The inverse hyperbolic sine where neither the sum of one and the square nor that of the number and the root cancels. -/
theorem asinh_core {s : ℝ} (hs : s ^ 2 = 1 + ‖complexOf z‖ ^ 2) (hs0 : 0 < s) (hs1 : s ≤ 2 ^ (201 : ℤ))
    {B : ℂ} (hB : B * B = 1 + complexOf z * complexOf z) (hB0 : B = (1 + complexOf z * complexOf z) ^ ((1 / 2 : ℝ) : ℂ))
    (hc1 : 0 ≤ (1 + complexOf z * complexOf z).re) (hc2 : s ^ 2 / 2 ≤ ‖1 + complexOf z * complexOf z‖) (hW : s / 5 ≤ (complexOf z + B).re) :
    CxWithin z.asinh (Complex.log (complexOf z + B)) (2 ^ (-42 : ℤ) * (1 + |(Complex.log (complexOf z + B)).re|)) := by
  have hu : f64.u ≤ 1 / 1000000 := by change (2 : ℝ) ^ (-53 : ℤ) ≤ _; norm_num
  obtain ⟨d, hd⟩ : ∃ d : ℝ, d = 2 ^ (-46 : ℤ) := ⟨_, rfl⟩
  have hd0 : 0 < d := by rw [hd]; positivity
  have hdu : f64.u = d / 128 := by rw [hd]; change (2 : ℝ) ^ (-53 : ℤ) = _; norm_num
  have hd6 : d ≤ 1 / 1000000 := by rw [hd]; norm_num
  have hn0 : 0 ≤ ‖complexOf z‖ := norm_nonneg _
  have hs2 : 1 ≤ s := by nlinarith
  have hsn : ‖complexOf z‖ ≤ s := by nlinarith
  obtain ⟨a, ha⟩ : ∃ a, a = s ^ 2 := ⟨_, rfl⟩
  have ha1 : 1 ≤ a := by rw [ha]; nlinarith
  have hap : 0 < a := by linarith
  have hFa : Fits f64 a := by
    refine fits64 (le_trans (zpow_le_one_of_nonpos₀ one_le_two (by norm_num)) ha1) ?_
    rw [ha]
    calc s ^ 2 ≤ (2 ^ (201 : ℤ)) ^ 2 := pow_le_pow_left₀ hs0.le hs1 2
      _ = 2 ^ (402 : ℤ) := by rw [← zpow_natCast, ← zpow_mul]; norm_num
      _ ≤ _ := zpow_le_zpow_right₀ one_le_two (by norm_num)
  have hF2 : Fits f64 (2 * s) := by
    refine fits64 (le_trans (zpow_le_one_of_nonpos₀ one_le_two (by norm_num)) (by linarith)) ?_
    calc 2 * s ≤ 2 * 2 ^ (201 : ℤ) := mul_le_mul_of_nonneg_left hs1 two_pos.le
      _ = 2 ^ (202 : ℤ) := by rw [show (202 : ℤ) = 1 + 201 by norm_num, zpow_add₀ two_ne_zero, zpow_one]
      _ ≤ _ := zpow_le_zpow_right₀ one_le_two (by norm_num)
  obtain ⟨ζ, hζ⟩ : ∃ ζ, ζ = complexOf z := ⟨_, rfl⟩
  have hzre : z.re.val = ζ.re := by rw [hζ]; rfl
  have hzim : z.im.val = ζ.im := by rw [hζ]; rfl
  rw [← hζ] at hs hn0 hsn hB hB0 hc1 hc2 hW ⊢
  rw [← ha] at hc2
  have hsq : ‖ζ‖ ^ 2 = ζ.re ^ 2 + ζ.im ^ 2 := by rw [Complex.sq_norm, Complex.normSq_apply]; ring
  have hxa : ζ.re ^ 2 + ζ.im ^ 2 + 1 = a := by rw [ha, hs, hsq]; ring
  have hx2 := sq_nonneg ζ.re
  have hy2 := sq_nonneg ζ.im
  -- the square
  have p1 := prod_scaled hu hFa hre hre (by rw [hzre, abs_of_nonneg (mul_self_nonneg _)]; nlinarith)
  have p2 := prod_scaled hu hFa him him (by rw [hzim, abs_of_nonneg (mul_self_nonneg _)]; nlinarith)
  have hxy : |ζ.re * ζ.im| ≤ a / 2 := by rw [abs_le]; constructor <;> nlinarith [sq_nonneg (ζ.re + ζ.im), sq_nonneg (ζ.re - ζ.im)]
  have p3 := prod_scaled hu hFa hre him (by rw [hzre, hzim]; linarith)
  have p4 := prod_scaled hu hFa him hre (by rw [hzre, hzim, mul_comm]; linarith)
  rw [hzre] at p1 p3 p4
  rw [hzim] at p2 p3 p4
  have q1 : Sc a (z * z).re (ζ * ζ).re (7 * f64.u) := by
    have := sum_scaled hu hFa (x := z.re * z.re) (y := -(z.im * z.im)) (p := ζ.re * ζ.re) (q := -(ζ.im * ζ.im)) p1 ⟨cx_finite_neg p2.1, by
      rw [val_neg, show -(z.im * z.im).val - -(ζ.im * ζ.im) = -((z.im * z.im).val - ζ.im * ζ.im) by ring, abs_neg]; exact p2.2⟩
      (by rw [abs_le]; constructor <;> nlinarith)
    rw [Complex.mul_re, sub_eq_add_neg]
    exact this
  have q2 : Sc a (z * z).im (ζ * ζ).im (7 * f64.u) := by
    have hxy' := abs_le.mp hxy
    have := sum_scaled hu hFa p3 p4 (by rw [abs_le]; constructor <;> linarith only [hxy', mul_comm ζ.re ζ.im])
    rw [Complex.mul_im]
    exact this
  obtain ⟨c, hc⟩ : ∃ c, c = 1 + ζ * ζ := ⟨_, rfl⟩
  rw [← hc] at hB hB0 hc1 hc2
  obtain ⟨q, hq⟩ : ∃ q, q = (1 : Cx (Ieee f64)) + z * z := ⟨_, rfl⟩
  have r1 : Sc a q.re c.re (10 * f64.u) := by
    have h1 : Sc a (1 : Ieee f64) 1 0 := ⟨finite_one, by rw [show (1 : Ieee f64).val = 1 from rfl]; simp⟩
    have := h1.add hu hFa q1 (by rw [Complex.mul_re, abs_le]; constructor <;> nlinarith) (by linarith)
    rw [hq, hc, Complex.add_re, Complex.one_re]
    exact this.mono hap.le (by have := f64.u_nonneg; linarith)
  have r2 : Sc a q.im c.im (10 * f64.u) := by
    have h1 : Sc a (0 : Ieee f64) 0 0 := ⟨finite_zero, by rw [show (0 : Ieee f64).val = 0 from rfl]; simp⟩
    have hxy' := abs_le.mp hxy
    have := h1.add hu hFa q2 (by rw [Complex.mul_im, abs_le]; constructor <;> linarith only [hxy', mul_comm ζ.re ζ.im]) (by linarith)
    rw [hq, hc, Complex.add_im, Complex.one_im]
    exact this.mono hap.le (by have := f64.u_nonneg; linarith)
  obtain ⟨Q, hQ⟩ : ∃ Q, Q = complexOf q := ⟨_, rfl⟩
  have hQc : ‖Q - c‖ ≤ 20 / 128 * d * a := by
    have := norm_le_parts (ζ := Q - c) (ε := 10 * f64.u * a) (by rw [hQ, Complex.sub_re]; exact r1.2) (by rw [hQ, Complex.sub_im]; exact r2.2)
    rw [hdu] at this
    linarith
  have hda : d * a ≤ 1 / 1000000 * a := mul_le_mul_of_nonneg_right hd6 hap.le
  have hcn : ‖c‖ ≤ a := by
    rw [hc, ← hxa, ← hsq]
    refine (norm_add_le _ _).trans ?_
    rw [norm_one, norm_mul]; linarith [sq ‖ζ‖]
  have hQ1 : ‖Q‖ ≤ 1001 / 1000 * a := by
    have := norm_sub_norm_le Q c
    linarith
  have hQ2 : a / 3 ≤ ‖Q‖ := by
    have := norm_sub_norm_le c Q
    rw [norm_sub_rev] at this
    linarith
  have hQs : Q ∈ Complex.slitPlane := by
    rw [Complex.mem_slitPlane_iff]
    by_contra hcon
    rw [not_or, not_lt, not_not] at hcon
    have h1 : ‖c‖ ≤ ‖Q - c‖ := by
      rw [← sq_le_sq₀ (norm_nonneg _) (norm_nonneg _), Complex.sq_norm, Complex.sq_norm, Complex.normSq_apply, Complex.normSq_apply,
        Complex.sub_re, Complex.sub_im, hcon.2]
      nlinarith [mul_nonneg hc1 (neg_nonneg.mpr hcon.1), mul_self_nonneg Q.re]
    linarith
  have hQ0 : Q ≠ 0 := Complex.slitPlane_ne_zero hQs
  -- the root
  obtain ⟨-, hA0⟩ := root_facts hQ0
  obtain ⟨hA1, -⟩ := root_facts hQ0
  have hroot := (C98_f64 he hed (z := q) r1.1 r2.1
    (by rw [← hQ]; refine le_trans (le_trans (zpow_le_zpow_right₀ one_le_two (show (-499 : ℤ) ≤ -2 by norm_num)) ?_) hQ2
        norm_num; linarith)
    (by rw [← hQ]; refine hQ1.trans ?_
        have h1 : 1001 / 1000 * a ≤ 4 * 2 ^ (402 : ℤ) := by
          have : a ≤ 2 ^ (402 : ℤ) := by
            rw [ha]
            calc s ^ 2 ≤ (2 ^ (201 : ℤ)) ^ 2 := pow_le_pow_left₀ hs0.le hs1 2
              _ = 2 ^ (402 : ℤ) := by rw [← zpow_natCast, ← zpow_mul]; norm_num
          generalize (2 : ℝ) ^ (402 : ℤ) = P at *
          linarith
        refine h1.trans ?_
        rw [show (4 : ℝ) = 2 ^ (2 : ℤ) by norm_num, ← zpow_add₀ two_ne_zero]
        exact zpow_le_zpow_right₀ one_le_two (by norm_num))
    (by rw [← hQ]; exact hQs)).1
  rw [← hQ] at hroot
  obtain ⟨A, hA⟩ : ∃ A, A = Q ^ ((1 / 2 : ℝ) : ℂ) := ⟨_, rfl⟩
  rw [← hA] at hroot hA0 hA1
  have hBre := root_re_sq hB
  have hB1 : 0 ≤ B.re := by
    rw [hB0]
    refine (root_facts ?_).2
    intro h0
    rw [h0, _root_.norm_zero] at hc2
    linarith
  have hB2 : s / 2 ≤ B.re := by
    by_contra hlt
    rw [not_le] at hlt
    have : B.re ^ 2 < (s / 2) ^ 2 := pow_lt_pow_left₀ hlt hB1 two_ne_zero
    rw [div_pow, ← ha] at this
    linarith
  have hAB : ‖A - B‖ ≤ 40 / 128 * d * s := by
    have e1 : (A - B) * (A + B) = Q - c := by rw [← hA1, ← hB]; ring
    have e2 : ‖A - B‖ * ‖A + B‖ = ‖Q - c‖ := by rw [← norm_mul, e1]
    have e3 : s / 2 ≤ ‖A + B‖ := by
      refine le_trans ?_ ((le_abs_self _).trans (Complex.abs_re_le_norm (A + B)))
      rw [Complex.add_re]; linarith
    have e4 := mul_le_mul_of_nonneg_left e3 (norm_nonneg (A - B))
    rw [e2] at e4
    have e5 := e4.trans hQc
    rw [ha] at e5
    refine le_of_mul_le_mul_right ?_ (half_pos hs0)
    linarith [sq s]
  have hsQ : Real.sqrt ‖Q‖ ≤ 1001 / 1000 * s := by
    rw [Real.sqrt_le_left (by positivity), mul_pow, ← ha]
    nlinarith
  rw [← hd] at hroot
  have hdr : d * Real.sqrt ‖Q‖ ≤ 1001 / 1000 * d * s := by
    have := mul_le_mul_of_nonneg_left hsQ hd0.le; linarith
  have hds0 : 0 < d * s := by positivity
  have hds : d * s ≤ 1 / 1000000 * s := mul_le_mul_of_nonneg_right hd6 hs0.le
  have t1 : Sc (2 * s) q.sqrt.re B.re (66 / 100 * d) := by
    refine ⟨hroot.1.1, ?_⟩
    have h1 := abs_le.mp (hroot.1.2.trans hdr)
    have h2 := abs_le.mp ((Complex.abs_re_le_norm (A - B)).trans hAB)
    rw [Complex.sub_re] at h2
    rw [abs_le]; constructor <;> linarith
  have t2 : Sc (2 * s) q.sqrt.im B.im (66 / 100 * d) := by
    refine ⟨hroot.2.1, ?_⟩
    have h1 := abs_le.mp (hroot.2.2.trans hdr)
    have h2 := abs_le.mp ((Complex.abs_im_le_norm (A - B)).trans hAB)
    rw [Complex.sub_im] at h2
    rw [abs_le]; constructor <;> linarith
  -- the sum
  have hBn : ‖B‖ ≤ s := by
    rw [← sq_le_sq₀ (norm_nonneg _) hs0.le, ← ha, sq, ← norm_mul, hB]; exact hcn
  have z1 : Sc (2 * s) z.re ζ.re 0 := ⟨hre, by rw [hzre, sub_self, abs_zero, zero_mul]⟩
  have z2 : Sc (2 * s) z.im ζ.im 0 := ⟨him, by rw [hzim, sub_self, abs_zero, zero_mul]⟩
  have hWn : ‖ζ + B‖ ≤ 2 * s := (norm_add_le _ _).trans (by linarith)
  have v1 := z1.add hu hF2 t1 (by rw [← Complex.add_re]; exact (Complex.abs_re_le_norm _).trans hWn) (by linarith)
  have v2 := z2.add hu hF2 t2 (by rw [← Complex.add_im]; exact (Complex.abs_im_le_norm _).trans hWn) (by linarith)
  obtain ⟨W, hWe⟩ : ∃ W, W = ζ + B := ⟨_, rfl⟩
  rw [← Complex.add_re, ← hWe] at v1
  rw [← Complex.add_im, ← hWe] at v2
  rw [← hWe] at hW hWn ⊢
  have hle : (0 + 66 / 100 * d + 203 / 100 * f64.u) * (2 * s) ≤ 14 / 10 * d * s := by rw [hdu]; linarith
  obtain ⟨w, hw⟩ : ∃ w, w = z + q.sqrt := ⟨_, rfl⟩
  have v3 : w.re.Finite ∧ |w.re.val - W.re| ≤ 14 / 10 * d * s := by rw [hw]; exact ⟨v1.1, v1.2.trans hle⟩
  have v4 : w.im.Finite ∧ |w.im.val - W.im| ≤ 14 / 10 * d * s := by rw [hw]; exact ⟨v2.1, v2.2.trans hle⟩
  have hdist : ‖complexOf w - W‖ ≤ 28 / 10 * d * s := by
    have := norm_le_parts (ζ := complexOf w - W) (ε := 14 / 10 * d * s) (by rw [Complex.sub_re]; exact v3.2) (by rw [Complex.sub_im]; exact v4.2)
    linarith
  have hwre : 199 / 1000 * s ≤ (complexOf w).re := by
    have := (abs_le.mp v3.2).1
    change 199 / 1000 * s ≤ w.re.val
    linarith
  have hlog := log_sub_le (w := complexOf w) (W := W) (m := 199 / 1000 * s) (by positivity) hwre (by linarith)
  have hlog2 : ‖Complex.log (complexOf w) - Complex.log W‖ ≤ 141 / 10 * d := by
    refine hlog.trans ?_
    rw [div_le_iff₀ (by positivity)]
    linarith
  have hwn1 : 199 / 1000 * s ≤ ‖complexOf w‖ := hwre.trans ((le_abs_self _).trans (Complex.abs_re_le_norm _))
  have hwn2 : ‖complexOf w‖ ≤ 4 * s := by
    have := norm_sub_norm_le (complexOf w) W
    linarith
  -- the logarithm
  have hln := (C98_f64 he hed (z := w) v3.1 v4.1
    (le_trans (le_trans (zpow_le_zpow_right₀ one_le_two (show (-499 : ℤ) ≤ -3 by norm_num)) (by norm_num; linarith)) hwn1)
    (hwn2.trans (by
      refine (mul_le_mul_of_nonneg_left hs1 (by norm_num)).trans ?_
      rw [show (4 : ℝ) = 2 ^ (2 : ℤ) by norm_num, ← zpow_add₀ two_ne_zero]
      exact zpow_le_zpow_right₀ one_le_two (by norm_num)))
    (Complex.mem_slitPlane_iff.mpr (Or.inl (by linarith)))).2.2.1
  rw [← hd, ← Complex.log_re] at hln
  have g1 := (Complex.abs_re_le_norm _).trans hlog2
  have g2 := (Complex.abs_im_le_norm _).trans hlog2
  rw [Complex.sub_re] at g1
  rw [Complex.sub_im] at g2
  have g3 : |(Complex.log (complexOf w)).re| ≤ |(Complex.log W).re| + 141 / 10 * d := by
    have := abs_sub_abs_le_abs_sub (Complex.log (complexOf w)).re (Complex.log W).re
    linarith
  have e42 : (2 : ℝ) ^ (-42 : ℤ) = 16 * d := by rw [hd]; norm_num
  rw [asinh_finite hre him, ← hq, ← hw, e42]
  have g4 := mul_le_mul_of_nonneg_left g3 hd0.le
  have g5 : d * (141 / 10 * d) ≤ 1 / 1000 * d := by nlinarith
  have g6 : 0 ≤ d * |(Complex.log W).re| := by positivity
  obtain ⟨⟨l1, l2⟩, l3, l4⟩ := hln
  have l5 := abs_le.mp l2
  have l6 := abs_le.mp l4
  have g7 := abs_le.mp g1
  have g8 := abs_le.mp g2
  refine ⟨⟨l1, ?_⟩, l3, ?_⟩
  · rw [abs_le]; constructor <;> linarith
  · rw [abs_le]; constructor <;> linarith

omit [Lib f64] he hed hre him in
/-- the logarithm of the sum of a number and the root is an inverse hyperbolic sine -/
theorem sinh_log_root {ζ B : ℂ} (hB : B * B = 1 + ζ * ζ) (h : 0 < (ζ + B).re) :
    Complex.sinh (Complex.log (ζ + B)) = ζ ∧ |(Complex.log (ζ + B)).im| ≤ Real.pi / 2 := by
  have hW : ζ + B ≠ 0 := fun h0 => by rw [h0] at h; exact lt_irrefl _ h
  refine ⟨?_, ?_⟩
  · rw [Complex.sinh, Complex.exp_neg, Complex.exp_log hW]
    have : (ζ + B)⁻¹ = B - ζ := by
      refine inv_eq_of_mul_eq_one_right ?_
      linear_combination hB
    rw [this]; ring
  · rw [Complex.log_im]
    exact Complex.abs_arg_le_pi_div_two_iff.mpr h.le

omit [Lib f64] he hed hre him in
theorem root_scale {n : ℝ} (h0 : 0 ≤ n) (h : n ≤ 2 ^ (200 : ℤ)) : ∃ s : ℝ, s ^ 2 = 1 + n ^ 2 ∧ 0 < s ∧ s ≤ 2 ^ (201 : ℤ) := by
  refine ⟨Real.sqrt (1 + n ^ 2), Real.sq_sqrt (by positivity), Real.sqrt_pos.mpr (by positivity), ?_⟩
  rw [Real.sqrt_le_left (by positivity)]
  have h1 : (1 : ℝ) ≤ 2 ^ (200 : ℤ) := one_le_zpow₀ one_le_two (by norm_num)
  have h2 : (2 : ℝ) ^ (201 : ℤ) = 2 * 2 ^ (200 : ℤ) := by rw [show (201 : ℤ) = 1 + 200 by norm_num, zpow_add₀ two_ne_zero, zpow_one]
  rw [h2]
  generalize (2 : ℝ) ^ (200 : ℤ) = P at *
  nlinarith

/-- **The inverse hyperbolic sine** of a number whose real part is at least the absolute value of its imaginary part, up to `2^200`: the computed
number is within `2^-42 (1 + Re α)` of the principal value `α`. -/
theorem C101_asinh (h : |z.im.val| ≤ z.re.val) (hn : ‖complexOf z‖ ≤ 2 ^ (200 : ℤ)) :
    ∃ α : ℂ, Complex.sinh α = complexOf z ∧ 0 ≤ α.re ∧ |α.im| ≤ Real.pi / 2 ∧ CxWithin z.asinh α (2 ^ (-42 : ℤ) * (1 + α.re)) := by
  obtain ⟨s, hs, hs0, hs1⟩ := root_scale (norm_nonneg _) hn
  have hx0 : 0 ≤ z.re.val := (abs_nonneg _).trans h
  have hyx : z.im.val ^ 2 ≤ z.re.val ^ 2 := by rw [← sq_abs]; exact pow_le_pow_left₀ (abs_nonneg _) h 2
  obtain ⟨ζ, hζ⟩ : ∃ ζ, ζ = complexOf z := ⟨_, rfl⟩
  have hzre : z.re.val = ζ.re := by rw [hζ]; rfl
  have hzim : z.im.val = ζ.im := by rw [hζ]; rfl
  have hsq : ‖ζ‖ ^ 2 = ζ.re ^ 2 + ζ.im ^ 2 := by rw [Complex.sq_norm, Complex.normSq_apply]; ring
  rw [hzre] at hx0 hyx
  rw [hzim] at hyx
  have hcre : (1 + ζ * ζ).re = 1 + ζ.re ^ 2 - ζ.im ^ 2 := by rw [Complex.add_re, Complex.one_re, Complex.mul_re]; ring
  have hcim : (1 + ζ * ζ).im = 2 * (ζ.re * ζ.im) := by rw [Complex.add_im, Complex.one_im, Complex.mul_im]; ring
  have hc1 : 1 ≤ (1 + ζ * ζ).re := by rw [hcre]; linarith
  have hc0 : (1 + ζ * ζ) ≠ 0 := fun h0 => by rw [h0] at hc1; norm_num at hc1
  have hcn : 1 ≤ ‖1 + ζ * ζ‖ := hc1.trans ((le_abs_self _).trans (Complex.abs_re_le_norm _))
  have hc2 : s ^ 2 / 2 ≤ ‖1 + ζ * ζ‖ := by
    rw [← sq_le_sq₀ (by positivity) (norm_nonneg _), Complex.sq_norm, Complex.normSq_apply, hcre, hcim, hs, ← hζ, hsq]
    nlinarith [sq_nonneg (ζ.re ^ 2 + ζ.im ^ 2 - 1)]
  obtain ⟨hB1, hB2⟩ := root_facts hc0
  obtain ⟨B, hB⟩ : ∃ B, B = (1 + ζ * ζ) ^ ((1 / 2 : ℝ) : ℂ) := ⟨_, rfl⟩
  rw [← hB] at hB1 hB2
  have hBre := root_re_sq hB1
  have hB3 : s / 2 ≤ B.re := by
    by_contra hlt
    rw [not_le] at hlt
    have : B.re ^ 2 < (s / 2) ^ 2 := pow_lt_pow_left₀ hlt hB2 two_ne_zero
    rw [div_pow] at this
    linarith
  have hWre : s / 5 ≤ (ζ + B).re := by rw [Complex.add_re]; linarith
  have hW1 : 1 ≤ ‖ζ + B‖ := by
    have hBim : B.re * B.im = ζ.re * ζ.im := by
      have := congrArg Complex.im hB1
      rw [hcim, Complex.mul_im] at this
      linarith
    have hBp : 0 < B.re := by linarith
    have hyB : 0 ≤ ζ.im * B.im := by
      have : B.re * (ζ.im * B.im) = ζ.re * ζ.im ^ 2 := by linear_combination ζ.im * hBim
      have h2 : 0 ≤ ζ.re * ζ.im ^ 2 := by positivity
      rw [← this] at h2
      exact nonneg_of_mul_nonneg_right h2 hBp
    have hxB : 0 ≤ ζ.re * B.re := mul_nonneg hx0 hB2
    have hBn : ‖1 + ζ * ζ‖ = B.re ^ 2 + B.im ^ 2 := by rw [← hB1, norm_mul, ← sq, Complex.sq_norm, Complex.normSq_apply]; ring
    rw [← one_le_sq_iff₀ (norm_nonneg _), Complex.sq_norm, Complex.normSq_apply, Complex.add_re, Complex.add_im]
    rw [hBn] at hcn
    nlinarith [sq_nonneg ζ.re, sq_nonneg ζ.im]
  obtain ⟨e1, e2⟩ := sinh_log_root hB1 (by linarith : 0 < (ζ + B).re)
  have hre0 : 0 ≤ (Complex.log (ζ + B)).re := by rw [Complex.log_re]; exact Real.log_nonneg hW1
  refine ⟨Complex.log (ζ + B), hζ ▸ e1, hre0, e2, ?_⟩
  have := asinh_core he hed hre him hs hs0 hs1 (B := B) (by rw [← hζ]; exact hB1) (by rw [← hζ]; exact hB) (by rw [← hζ]; linarith)
    (by rw [← hζ]; exact hc2) (by rw [← hζ]; exact hWre)
  rw [← hζ, abs_of_nonneg hre0] at this
  exact this

/-- **The inverse hyperbolic sine near zero**, in every direction. -/
theorem C101_asinh_small (hn : ‖complexOf z‖ ≤ 1 / 2) :
    ∃ α : ℂ, Complex.sinh α = complexOf z ∧ |α.im| ≤ Real.pi / 2 ∧ CxWithin z.asinh α (2 ^ (-42 : ℤ) * (1 + |α.re|)) := by
  obtain ⟨s, hs, hs0, hs1⟩ := root_scale (norm_nonneg (complexOf z)) (hn.trans (le_trans (by norm_num) (one_le_zpow₀ one_le_two (by norm_num))))
  obtain ⟨ζ, hζ⟩ : ∃ ζ, ζ = complexOf z := ⟨_, rfl⟩
  rw [← hζ] at hn hs
  have hn0 : 0 ≤ ‖ζ‖ := norm_nonneg _
  have hz2 : ‖ζ * ζ‖ ≤ 1 / 4 := by rw [norm_mul]; nlinarith
  have hs2 : s ^ 2 ≤ 5 / 4 := by rw [hs]; nlinarith
  have hs3 : s ≤ 113 / 100 := by nlinarith
  have hc1 : 3 / 4 ≤ (1 + ζ * ζ).re := by
    have := abs_le.mp ((Complex.abs_re_le_norm (ζ * ζ)).trans hz2)
    rw [Complex.add_re, Complex.one_re]; linarith
  have hc0 : (1 + ζ * ζ) ≠ 0 := fun h0 => by rw [h0] at hc1; norm_num at hc1
  have hc2 : 3 / 4 ≤ ‖1 + ζ * ζ‖ := hc1.trans ((le_abs_self _).trans (Complex.abs_re_le_norm _))
  obtain ⟨hB1, hB2⟩ := root_facts hc0
  obtain ⟨B, hB⟩ : ∃ B, B = (1 + ζ * ζ) ^ ((1 / 2 : ℝ) : ℂ) := ⟨_, rfl⟩
  rw [← hB] at hB1 hB2
  have hBre := root_re_sq hB1
  have hB3 : 3 / 4 ≤ B.re := by
    by_contra hlt
    rw [not_le] at hlt
    have : B.re ^ 2 < (3 / 4) ^ 2 := pow_lt_pow_left₀ hlt hB2 two_ne_zero
    linarith
  have hWre : s / 5 ≤ (ζ + B).re := by
    have := abs_le.mp ((Complex.abs_re_le_norm ζ).trans hn)
    rw [Complex.add_re]; linarith
  obtain ⟨e1, e2⟩ := sinh_log_root hB1 (by linarith : 0 < (ζ + B).re)
  refine ⟨Complex.log (ζ + B), hζ ▸ e1, e2, ?_⟩
  have := asinh_core he hed hre him (by rw [← hζ]; exact hs) hs0 hs1 (B := B) (by rw [← hζ]; exact hB1) (by rw [← hζ]; exact hB)
    (by rw [← hζ]; linarith) (by rw [← hζ]; linarith) (by rw [← hζ]; exact hWre)
  rw [← hζ] at this
  exact this

omit [Lib f64] he hed hre him in
theorem complexOf_turned (z : Cx (Ieee f64)) : complexOf (Cx.new (-z.im) z.re) = complexOf z * Complex.I := by
  apply Complex.ext
  · rw [Complex.mul_I_re]; exact val_neg _
  · rw [Complex.mul_I_im]; rfl

omit he hed hre him in
theorem asin_of_asinh {α : ℂ} {ε : ℝ} (h1 : Complex.sinh α = complexOf (Cx.new (-z.im) z.re)) (h2 : CxWithin (Cx.asinh (Cx.new (-z.im) z.re)) α ε) :
    Complex.sin (⟨α.im, -α.re⟩ : ℂ) = complexOf z ∧ CxWithin z.asin ⟨α.im, -α.re⟩ ε := by
  refine ⟨?_, h2.2, cx_finite_neg h2.1.1, ?_⟩
  · have e : (⟨α.im, -α.re⟩ : ℂ) = -(α * Complex.I) := by
      apply Complex.ext
      · rw [Complex.neg_re, Complex.mul_I_re, neg_neg]
      · rw [Complex.neg_im, Complex.mul_I_im]
    rw [e, Complex.sin_neg, Complex.sin_mul_I, h1, complexOf_turned, mul_assoc, Complex.I_mul_I]
    ring
  · change |(-(Cx.asinh (Cx.new (-z.im) z.re)).re).val - -α.re| ≤ ε
    rw [val_neg, show -(Cx.asinh (Cx.new (-z.im) z.re)).re.val - -α.re = -((Cx.asinh (Cx.new (-z.im) z.re)).re.val - α.re) by ring, abs_neg]
    exact h2.1.2

/-- **The inverse sine** in the quadrant below the origin and near zero. -/
theorem C101_asin (h : |z.re.val| ≤ -z.im.val ∧ ‖complexOf z‖ ≤ 2 ^ (200 : ℤ) ∨ ‖complexOf z‖ ≤ 1 / 2) :
    ∃ β : ℂ, Complex.sin β = complexOf z ∧ |β.re| ≤ Real.pi / 2 ∧ CxWithin z.asin β (2 ^ (-42 : ℤ) * (1 + |β.im|)) := by
  have hnorm : ‖complexOf (Cx.new (-z.im) z.re)‖ = ‖complexOf z‖ := by rw [complexOf_turned, norm_mul, Complex.norm_I, mul_one]
  obtain ⟨α, a1, a2, a3⟩ : ∃ α : ℂ, Complex.sinh α = complexOf (Cx.new (-z.im) z.re) ∧ |α.im| ≤ Real.pi / 2 ∧
      CxWithin (Cx.asinh (Cx.new (-z.im) z.re)) α (2 ^ (-42 : ℤ) * (1 + |α.re|)) := by
    rcases h with ⟨h, hn⟩ | hn
    · obtain ⟨α, a1, a0, a2, a3⟩ := C101_asinh he hed (z := Cx.new (-z.im) z.re) (cx_finite_neg him) hre
        (by change |z.re.val| ≤ (-z.im).val; rw [val_neg]; exact h) (by rw [hnorm]; exact hn)
      exact ⟨α, a1, a2, by rw [abs_of_nonneg a0]; exact a3⟩
    · exact C101_asinh_small he hed (z := Cx.new (-z.im) z.re) (cx_finite_neg him) hre (by rw [hnorm]; exact hn)
  obtain ⟨b1, b2⟩ := asin_of_asinh a1 a3
  exact ⟨_, b1, a2, by rw [abs_neg]; exact b2⟩

end

/-! ### the hypotheses are met -/

section
attribute [local instance] Library64.correctlyRounded

/-- a library that overflows as the standard asks -/
theorem overflows_correctlyRounded : Spec.Overflows := by
  rintro _ ⟨s, m, h, rfl⟩ hx
  have hbig : f64.big < 2 ^ (1026 : ℤ) := by
    change (2 ^ 53 - 1) * (2 : ℝ) ^ 971 < _
    have h2 : (2 : ℝ) ^ (1026 : ℤ) = 2 ^ 55 * 2 ^ 971 := by
      rw [show (1026 : ℤ) = ((55 + 971 : ℕ) : ℤ) by norm_num, zpow_natCast, pow_add]
    rw [h2]
    exact mul_lt_mul_of_pos_right (by norm_num) (by positivity)
  have hr : ∀ (t : Bool) {x : ℝ}, 2 ^ (1026 : ℤ) ≤ x → (Ieee.round t x : Ieee f64) = inf false := by
    intro t x hx
    have hx0 : 0 < x := lt_of_lt_of_le (by positivity) hx
    have hm := f64.mono _ _ hx
    rw [fl64_two_zpow (by norm_num)] at hm
    have hn : ¬ f64.fl |x| ≤ f64.big := by
      rw [abs_of_pos hx0, not_le]
      exact lt_of_lt_of_le hbig hm
    simp only [Ieee.round, dif_neg hn, if_neg hx0.ne', decide_eq_false (not_lt.mpr hx0.le)]
  have hm0 : m ≠ 0 := by
    rintro rfl
    have : (fin s 0 h : Ieee f64).val = 0 := by cases s <;> simp [Ieee.val, signed]
    rw [this, Real.sinh_zero] at hx
    exact absurd hx (not_le.mpr (by positivity))
  refine ⟨?_, ?_⟩
  · change Ieee.round false (Real.cosh (signed s m)) = _
    exact hr _ (hx.trans (Real.sinh_lt_cosh _).le)
  · change (if m = 0 then fin s m h else Ieee.round s (Real.sinh (signed s m))) = _
    rw [if_neg hm0]
    exact hr _ hx

theorem is_power {k : ℤ} (h0 : 0 ≤ k) (h1 : k ≤ 90) : Is (num (2 ^ k)) (2 ^ k) :=
  is_num' (fl64_two_zpow (by omega)) (by rw [abs_of_pos (by positivity)]; exact zpow_le_zpow_right₀ one_le_two (by omega))

/-- the hyperbolic tangent at 512 is not a number -/
example : (Cx.tanh (⟨num (2 ^ (9 : ℤ)), 0⟩ : Cx (Ieee f64))).re = nan :=
  (C101_tanh_overflow_fails overflows_correctlyRounded (z := ⟨num (2 ^ (9 : ℤ)), 0⟩) (is_power (by norm_num) (by norm_num)).1 finite_zero (by
    change (356 : ℝ) ≤ (num (2 ^ (9 : ℤ))).val
    rw [(is_power (by norm_num) (by norm_num)).2]; norm_num)).1

/-- the inverse hyperbolic sine of `-2^30` is infinite -/
example : (Cx.asinh (⟨-num (2 ^ (30 : ℤ)), 0⟩ : Cx (Ieee f64))).re = inf true :=
  C101_asinh_fails (k := 30) (by norm_num) (by norm_num) (is_power (by norm_num) (by norm_num)).neg Is.zero

/-- the hyperbolic tangent of `1 + i`, and its inverse hyperbolic sine -/
example : let z : Cx (Ieee f64) := ⟨num (2 ^ (0 : ℤ)), num (2 ^ (0 : ℤ))⟩
    CxWithin z.tanh (Complex.tanh ⟨1, 1⟩) (2 ^ (-47 : ℤ) * 2 ^ 2) ∧ ∃ α : ℂ, Complex.sinh α = ⟨1, 1⟩ ∧ CxWithin z.asinh α (2 ^ (-42 : ℤ) * (1 + α.re)) := by
  intro z
  have hp : Is (num (2 ^ (0 : ℤ))) 1 := by have := is_power (k := 0) le_rfl (by norm_num); rwa [zpow_zero] at this
  rw [zpow_zero] at hp
  have e : complexOf z = ⟨1, 1⟩ := by
    apply Complex.ext
    · change (num (2 ^ (0 : ℤ))).val = 1; rw [zpow_zero]; exact hp.2
    · change (num (2 ^ (0 : ℤ))).val = 1; rw [zpow_zero]; exact hp.2
  have f : z.re.Finite ∧ z.im.Finite := by
    refine ⟨?_, ?_⟩
    · change (num (2 ^ (0 : ℤ))).Finite; rw [zpow_zero]; exact hp.1
    · change (num (2 ^ (0 : ℤ))).Finite; rw [zpow_zero]; exact hp.1
  have v1 : z.re.val = 1 := congrArg Complex.re e
  have v2 : z.im.val = 1 := congrArg Complex.im e
  rw [← e]
  refine ⟨C101_tanh complexLibrary_correctlyRounded le_rfl f.1 f.2 (by rw [v1]; norm_num) (by rw [v2]; norm_num) (K := 2) (by norm_num) ?_, ?_⟩
  · rw [v1, mul_one]
    have h1 := Real.cos_two_neg
    have h2 := Real.one_sub_sq_div_two_le_cos (x := 2)
    have h3 : 1 + 2 ^ 2 / 2 ≤ Real.cosh 2 := by
      rw [Real.cosh_eq]
      have h4 := Real.quadratic_le_exp_of_nonneg (show (0 : ℝ) ≤ 2 by norm_num)
      have h5 := Real.add_one_le_exp (-2 : ℝ)
      have h6 := Real.exp_pos (-2)
      have h7 : (6 : ℝ) ≤ Real.exp 2 := by
        have := Real.exp_one_gt_d9
        rw [show (2 : ℝ) = 1 + 1 by norm_num, Real.exp_add]
        nlinarith
      linarith
    linarith
  · obtain ⟨α, h1, -, -, h2⟩ := C101_asinh complexLibrary_correctlyRounded le_rfl f.1 f.2 (by rw [v1, abs_one]) (by
      refine (Complex.norm_le_abs_re_add_abs_im _).trans ?_
      rw [e]
      change |(1 : ℝ)| + |(1 : ℝ)| ≤ _
      rw [abs_one]
      exact le_trans (by norm_num) (zpow_le_zpow_right₀ one_le_two (show (1 : ℤ) ≤ 200 by norm_num)))
    exact ⟨α, h1, h2⟩

end

end Cgl

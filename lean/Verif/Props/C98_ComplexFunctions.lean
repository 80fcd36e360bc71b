import Verif.Props.C93_Plane
import Verif.Props.C97_ExpLog
import Verif.Props.C72_ComplexSpecial
import Verif.Lemmas.Scaled
import Mathlib.Analysis.SpecialFunctions.Pow.Complex
import Mathlib.Analysis.SpecialFunctions.Pow.Real
import Mathlib.Analysis.Complex.ExponentialBounds

/-! # C98 - functions of complex numbers in floating point -/

namespace Cgl
open Ieee FloatFns Spec

variable {φ : Format}

namespace Spec

/-- the number that a complex number with finite parts stands for -/
noncomputable def complexOf (z : Cx (Ieee φ)) : ℂ := ⟨z.re.val, z.im.val⟩

/-- both parts are finite and within `ε` of those of `ζ` -/
def CxWithin (w : Cx (Ieee φ)) (ζ : ℂ) (ε : ℝ) : Prop :=
  (w.re.Finite ∧ |w.re.val - ζ.re| ≤ ε) ∧ (w.im.Finite ∧ |w.im.val - ζ.im| ≤ ε)

/-- The accuracy of the library: sine and cosine have absolute errors of at most `a` for arguments up to `B`; so has the
argument away from the negative reals; the exponential function and the hyperbolic functions have errors of at most `a` times
`exp x` and `cosh x` for arguments up to `X`, the cube root of a number that is not subnormal has a relative error of at most `a`, its
logarithm an error of at most `a (1 + |log x|)`. -/
structure ComplexLibrary (φ : Format) [Lib φ] (a B X : ℝ) : Prop where
  sincos : SinCosWithin φ a B
  arg : ∀ y x : Ieee φ, y.Finite → x.Finite → (0 < x.val ∨ y.val ≠ 0) →
    (fatan2 y x).Finite ∧ |(fatan2 y x).val - Complex.arg ⟨x.val, y.val⟩| ≤ a
  exp : ∀ x : Ieee φ, x.Finite → |x.val| ≤ X → (fexp x).Finite ∧ |(fexp x).val - Real.exp x.val| ≤ a * Real.exp x.val
  cosh : ∀ x : Ieee φ, x.Finite → |x.val| ≤ X → (fcosh x).Finite ∧ |(fcosh x).val - Real.cosh x.val| ≤ a * Real.cosh x.val
  sinh : ∀ x : Ieee φ, x.Finite → |x.val| ≤ X → (fsinh x).Finite ∧ |(fsinh x).val - Real.sinh x.val| ≤ a * Real.cosh x.val
  ln : ∀ x : Ieee φ, x.Finite → 0 < x.val → φ.tiny ≤ 2 * φ.u * x.val → (fln x).Finite ∧
    |(fln x).val - Real.log x.val| ≤ a * (1 + |Real.log x.val|)
  cbrt : ∀ x : Ieee φ, x.Finite → 0 < x.val → φ.tiny ≤ 2 * φ.u * x.val → (fcbrt x).Finite ∧
    |(fcbrt x).val - x.val ^ (1 / 3 : ℝ)| ≤ a * x.val ^ (1 / 3 : ℝ)

theorem CxWithin.mono {w : Cx (Ieee φ)} {ζ : ℂ} {ε η : ℝ} (h : CxWithin w ζ ε) (hle : ε ≤ η) : CxWithin w ζ η :=
  ⟨⟨h.1.1, h.1.2.trans hle⟩, ⟨h.2.1, h.2.2.trans hle⟩⟩

end Spec

/-! ### the modulus -/

theorem eq_of_val {x y : Ieee φ} (hx : x.Finite) (hy : y.Finite) (h : x.val = y.val) (h0 : 0 < x.val) : x = y := by
  obtain ⟨s, m, hm, rfl⟩ := hx
  obtain ⟨t, k, hk, rfl⟩ := hy
  cases s
  · cases t
    · have : m = k := h
      subst this; rfl
    · have h1 : m = -k := h
      have h2 : 0 < m := h0
      have := hk.1
      linarith
  · have h2 : 0 < -m := h0
    have := hm.1
    linarith

theorem complexOf_norm (z : Cx (Ieee φ)) : ‖complexOf z‖ = Spec.length (Vec.new2 z.re z.im) := by
  rw [Complex.norm_eq_sqrt_sq_add_sq, Spec.length]
  simp [complexOf, Fin.sum_univ_two, Vec.new2]

section
variable [Lib φ] {lo : ℝ} {z : Cx (Ieee φ)} (hre : z.re.Finite) (him : z.im.Finite) (hs : Safe φ 2 lo ‖complexOf z‖)
include hre him hs

theorem cx_norm : z.norm.Finite ∧ |z.norm.val - ‖complexOf z‖| ≤ 5 * φ.u * ‖complexOf z‖ := by
  have hv : ∀ i, ((Vec.new2 z.re z.im).data i).Finite := fun i => by fin_cases i; exacts [hre, him]
  rw [complexOf_norm] at hs ⊢
  obtain ⟨n1, n2⟩ := safe_norm_squared _ hv hs
  obtain ⟨n3, n4⟩ := safe_norm _ hv hs
  have hq := hs.pos
  have hu0 := φ.u_nonneg
  have hpos : 0 < (Vec.new2 z.re z.im).normSquared.val := by
    have h1 := (abs_le.mp n2).1
    have h2 := hs.dim
    push_cast at h1 h2
    have : 0 < Spec.length (Vec.new2 z.re z.im) ^ 2 := by positivity
    nlinarith
  have hd : (Vec.new2 z.re z.im).normSquared = 0 + z.re * z.re + z.im * z.im := rfl
  rw [hd] at n1 hpos
  obtain ⟨k1, k2⟩ := finite_add n1
  obtain ⟨-, k3⟩ := finite_add k1
  have hval : (0 + z.re * z.re).val = (z.re * z.re).val := by rw [val_add k1, val_zero, zero_add, val_rep]
  have hfl : (0 + z.re * z.re + z.im * z.im).val = φ.fl ((z.re * z.re).val + (z.im * z.im).val) := by rw [val_add n1, hval]
  have hf : (z.re * z.re + z.im * z.im).Finite := finite_add_of k3 k2 (by rw [← hfl]; exact abs_val_le_big _)
  have hEq : z.norm = (Vec.new2 z.re z.im).norm := by
    change fsqrt (z.re * z.re + z.im * z.im) = fsqrt (0 + z.re * z.re + z.im * z.im)
    rw [eq_of_val n1 hf (by rw [hfl, val_add hf]) hpos]
  rw [hEq]
  refine ⟨n3, n4.trans (le_of_eq ?_)⟩
  push_cast; ring

omit [Lib φ] hre him in
theorem safe_fits : Fits φ ‖complexOf z‖ ∧ Fits φ (Real.sqrt ‖complexOf z‖) ∧ Fits φ (‖complexOf z‖ ^ (1 / 3 : ℝ)) := by
  obtain ⟨q, hq⟩ : ∃ q, q = ‖complexOf z‖ := ⟨_, rfl⟩
  rw [← hq] at hs ⊢
  have h0 := hs.pos
  have hu0 := φ.u_nonneg
  have h1 := hs.squares
  have h2 := hs.tiny
  have h3 := hs.over
  have h4 := hs.two
  push_cast at h1 h2
  have ht := φ.tiny_nonneg
  -- every size between that of `q` and one
  have key : ∀ r : ℝ, 0 < r → (q ≤ 1 → q ≤ r ∧ r ≤ 1) → (1 ≤ q → 1 ≤ r ∧ r ≤ q) → Fits φ r := fun r r0 r1 r2 => by
    rcases le_total q 1 with h | h
    · obtain ⟨k1, k2⟩ := r1 h
      have k3 : φ.u * q ^ 2 ≤ φ.u * r := mul_le_mul_of_nonneg_left (by nlinarith) hu0
      exact ⟨r0, by linarith, by linarith⟩
    · obtain ⟨k1, k2⟩ := r2 h
      have k3 : φ.u * 1 ≤ φ.u * r := mul_le_mul_of_nonneg_left k1 hu0
      exact ⟨r0, by linarith, by nlinarith⟩
  refine ⟨key q h0 (fun h => ⟨le_rfl, h⟩) fun h => ⟨h, le_rfl⟩, key _ (Real.sqrt_pos.mpr h0) (fun h => ⟨?_, ?_⟩) fun h => ⟨?_, ?_⟩,
    key _ (by positivity) (fun h => ⟨?_, ?_⟩) fun h => ⟨?_, ?_⟩⟩
  · rw [Real.le_sqrt h0.le h0.le]; nlinarith
  · rw [Real.sqrt_le_left zero_le_one]; linarith
  · rw [Real.one_le_sqrt]; exact h
  · rw [Real.sqrt_le_left h0.le]; nlinarith
  · calc q = q ^ (1 : ℝ) := (Real.rpow_one q).symm
      _ ≤ q ^ (1 / 3 : ℝ) := Real.rpow_le_rpow_of_exponent_ge h0 h (by norm_num)
  · exact Real.rpow_le_one h0.le h (by norm_num)
  · exact Real.one_le_rpow h (by norm_num)
  · calc q ^ (1 / 3 : ℝ) ≤ q ^ (1 : ℝ) := Real.rpow_le_rpow_of_exponent_le h (by norm_num)
      _ = q := Real.rpow_one q

end

/-! ### powers of exact numbers -/

theorem polar_cpow {ζ : ℂ} (h : ζ ≠ 0) (x : ℝ) : ζ ^ (x : ℂ) = ⟨‖ζ‖ ^ x * Real.cos (x * ζ.arg), ‖ζ‖ ^ x * Real.sin (x * ζ.arg)⟩ := by
  have hn : 0 < ‖ζ‖ := norm_pos_iff.mpr h
  have e : Complex.log ζ * (x : ℂ) = ⟨Real.log ‖ζ‖ * x, x * ζ.arg⟩ := by
    apply Complex.ext
    · simp [Complex.log_re]
    · simp [Complex.log_im, mul_comm]
  rw [Complex.cpow_def_of_ne_zero h, e]
  apply Complex.ext
  · rw [Complex.exp_re, Real.rpow_def_of_pos hn]
  · rw [Complex.exp_im, Real.rpow_def_of_pos hn]

section
variable [Lib φ] {lo d e B X : ℝ} {z : Cx (Ieee φ)} (hφ : Fine φ) (hd : d ≤ 1 / 1000000) (hwd : unit φ ≤ d) (he : ComplexLibrary φ e B X)
  (hed : e ≤ d) (hB : 4 ≤ B)

include hwd in
theorem u_le_of_unit : φ.u ≤ d := by
  have := φ.tiny_nonneg
  unfold Spec.unit at hwd
  linarith

include hd hwd he hed in
/-- a polar form -/
theorem from_polar {s t : Ieee φ} {a θ ε η : ℝ} (ha : Fits φ a) (hs : s.Finite) (hse : |s.val - a| ≤ ε * a) (ht : Nr t θ η) (hθ : |θ| + η ≤ B)
    (hε : ε ≤ 1 / 1000) (hη : η + d ≤ 1 / 1000) :
    CxWithin (Cx.fromPolarDecomposition s ⟨t⟩) ⟨a * Real.cos θ, a * Real.sin θ⟩ ((1001 / 1000 * ε + η + 304 / 100 * d) * a) := by
  have hu := u_le_of_unit hwd
  have hp := ha.pos
  obtain ⟨k1, k2⟩ := he.sincos t ht.1 (ht.val_le le_rfl |>.trans hθ)
  have hC : Nr (fcos t) (Real.cos θ) (η + d) := ⟨k2.1, by
    have c1 := abs_le.mp (k2.2.trans hed)
    have c2 := abs_le.mp ((Real.abs_cos_sub_cos_le t.val θ).trans ht.2)
    rw [abs_le]; constructor <;> linarith⟩
  have hS : Nr (fsin t) (Real.sin θ) (η + d) := ⟨k1.1, by
    have c1 := abs_le.mp (k1.2.trans hed)
    have c2 := abs_le.mp ((Real.abs_sin_sub_sin_le t.val θ).trans ht.2)
    rw [abs_le]; constructor <;> linarith⟩
  have hle : (1001 / 1000 * ε + (η + d) + 203 / 100 * φ.u) * a ≤ (1001 / 1000 * ε + η + 304 / 100 * d) * a :=
    mul_le_mul_of_nonneg_right (by linarith [φ.u_nonneg]) hp.le
  have haa : |a| ≤ a := by rw [abs_of_pos hp]
  exact ⟨(mul_scaled (hu.trans hd) ha hs hse haa hC (Real.abs_cos_le_one θ) hε hη).mono hle,
    (mul_scaled (hu.trans hd) ha hs hse haa hS (Real.abs_sin_le_one θ) hε hη).mono hle⟩

section
variable (hre : z.re.Finite) (him : z.im.Finite) (hs : Safe φ 2 lo ‖complexOf z‖) (hz : complexOf z ∈ Complex.slitPlane)

include he hed hre him hz in
theorem cx_arg : Nr z.arg (complexOf z).arg d := by
  have h := he.arg z.im z.re him hre (Complex.mem_slitPlane_iff.mp hz)
  exact ⟨h.1, h.2.trans hed⟩

include hd hwd he hed hB hre him hs hz in
/-- **Polar form and back.** -/
theorem C98_polar : (z.polarDecomposition.1.Finite ∧ |z.polarDecomposition.1.val - ‖complexOf z‖| ≤ 5 * φ.u * ‖complexOf z‖) ∧
    (z.polarDecomposition.2.val.Finite ∧ |z.polarDecomposition.2.val.val - (complexOf z).arg| ≤ d) ∧
    CxWithin (Cx.fromPolarDecomposition z.polarDecomposition.1 z.polarDecomposition.2) (complexOf z) (10 * d * ‖complexOf z‖) := by
  have hu := u_le_of_unit hwd
  have hu0 := φ.u_nonneg
  obtain ⟨n1, n2⟩ := cx_norm hre him hs
  have hA := cx_arg he hed hre him hz
  obtain ⟨f1, -, -⟩ := safe_fits hs
  have hpi := Real.pi_lt_d2
  have hab := Complex.abs_arg_le_pi (complexOf z)
  have h := from_polar hd hwd he hed f1 n1 n2 hA (by linarith) (by linarith) (by linarith)
  refine ⟨⟨n1, n2⟩, hA, ?_⟩
  have e1 : (⟨‖complexOf z‖ * Real.cos (complexOf z).arg, ‖complexOf z‖ * Real.sin (complexOf z).arg⟩ : ℂ) = complexOf z := by
    apply Complex.ext
    · exact Complex.norm_mul_cos_arg _
    · exact Complex.norm_mul_sin_arg _
  rw [e1] at h
  have hle : (1001 / 1000 * (5 * φ.u) + d + 304 / 100 * d) * ‖complexOf z‖ ≤ 10 * d * ‖complexOf z‖ :=
    mul_le_mul_of_nonneg_right (by linarith) (_root_.norm_nonneg _)
  exact h.mono hle

omit [Lib φ] in
theorem norm_normal {v q : ℝ} (h0 : 0 ≤ φ.u) (h : φ.tiny ≤ φ.u * q) (hv : q / 2 ≤ v) : φ.tiny ≤ 2 * φ.u * v := by
  have := mul_le_mul_of_nonneg_left hv h0
  linarith

omit [Lib φ] in
theorem div_small {t : Ieee φ} {θ : ℝ} {k : Ieee φ} {m : ℝ} (hφ : Fine φ) (hd : d ≤ 1 / 1000000) (hwd : unit φ ≤ d) (ht : Nr t θ d)
    (hθ : |θ| ≤ 401 / 100) (hk : Nr k m 0) (hm : 2 ≤ m) : Nr (t / k) (θ / m) (4 * d) := by
  have hw0 : 0 ≤ unit φ := unit_nonneg
  have := ht.div hφ hk (lo := 2) (A := 401 / 100) (M := 3) (by norm_num) (by rw [abs_of_pos (by linarith)]; linarith) hθ
    (by rw [div_le_iff₀ (by norm_num)]; linarith) (by norm_num) (by norm_num)
  refine this.mono ?_
  rw [mul_zero, zero_div]
  linarith

omit [Lib φ] in
theorem div_three {t : Ieee φ} {θ : ℝ} (hφ : Fine φ) (hd : d ≤ 1 / 1000000) (hwd : unit φ ≤ d) (ht : Nr t θ d)
    (hθ : |θ| ≤ 315 / 100) : Nr (t / (1 + 1 + 1)) (θ / 3) (5 * d) := by
  have hw0 : 0 ≤ unit φ := unit_nonneg
  have hk : Nr ((1 : Ieee φ) + 1 + 1) 3 (3 * unit φ) := by
    have := (two_nr hφ).add hφ (Nr.one (φ := φ)) (M := 3) (by norm_num [abs_of_pos]) (by norm_num) (by norm_num)
    rw [show (2 : ℝ) + 1 = 3 by norm_num] at this
    exact this.mono (by linarith)
  have := ht.div hφ hk (lo := 2) (A := 315 / 100) (M := 2) (by norm_num) (by rw [abs_of_pos (by norm_num)]; linarith) hθ
    (by rw [div_le_iff₀ (by norm_num)]; linarith) (by norm_num) (by norm_num)
  refine this.mono ?_
  linarith

include hd hwd hre him hs in
theorem cx_root : (fsqrt z.norm).Finite ∧ |(fsqrt z.norm).val - Real.sqrt ‖complexOf z‖| ≤ (8 * φ.u) * Real.sqrt ‖complexOf z‖ := by
  have hu := u_le_of_unit hwd
  have hu0 := φ.u_nonneg
  have hw0 : 0 ≤ unit φ := unit_nonneg
  obtain ⟨n1, n2⟩ := cx_norm hre him hs
  obtain ⟨-, f2, -⟩ := safe_fits hs
  obtain ⟨q, hq⟩ : ∃ q, q = ‖complexOf z‖ := ⟨_, rfl⟩
  have hq0 : 0 < q := by rw [hq]; exact hs.pos
  rw [← hq] at n2 f2 ⊢
  obtain ⟨m, hm⟩ : ∃ m, m = Real.sqrt q := ⟨_, rfl⟩
  rw [← hm] at f2 ⊢
  have hm0 := f2.pos
  have hmq : m ^ 2 = q := by rw [hm, Real.sq_sqrt hq0.le]
  have hn := abs_le.mp n2
  have hnu : φ.u * q ≤ 1 / 1000000 * q := mul_le_mul_of_nonneg_right (hu.trans hd) hq0.le
  have hv0 : 0 ≤ z.norm.val := by nlinarith
  -- the root of the modulus
  have r1 : |Real.sqrt z.norm.val - m| ≤ 5 * φ.u * m := by
    have := root_near (x := Real.sqrt z.norm.val) (y := m) (lo := m) (e := 5 * φ.u * q) (Real.sqrt_nonneg _) hm0 le_rfl
      (by rw [Real.sq_sqrt hv0, hmq]; exact n2)
    refine this.trans (le_of_eq ?_)
    rw [← hmq]; field_simp
  have r2 := abs_le.mp r1
  have hum : φ.u * m ≤ 1 / 1000000 * m := mul_le_mul_of_nonneg_right (hu.trans hd) hm0.le
  obtain ⟨r3, r4⟩ := f2.round (hu.trans hd) (z := Real.sqrt z.norm.val) (by rw [abs_of_nonneg (Real.sqrt_nonneg _)]; linarith)
  have r5 : (fsqrt z.norm).Finite := by rw [Lib.sqrt_eq]; exact finite_sqrt_of n1 hv0 r3
  refine ⟨r5, ?_⟩
  · have : (fsqrt z.norm).val = φ.fl (Real.sqrt z.norm.val) := by
      rw [Lib.sqrt_eq] at r5 ⊢; exact (val_sqrt r5).1
    rw [this]
    have r7 := abs_le.mp r4
    have : 0 ≤ φ.u * m := by positivity
    rw [abs_le]; constructor <;> linarith

include hφ hd hwd he hed hB hre him hs in
theorem sqrt_polar {θ : ℝ} (hA : Nr z.arg θ d) (hθ : |θ| ≤ 401 / 100) :
    CxWithin z.sqrt ⟨Real.sqrt ‖complexOf z‖ * Real.cos (θ / 2), Real.sqrt ‖complexOf z‖ * Real.sin (θ / 2)⟩
      (16 * d * Real.sqrt ‖complexOf z‖) := by
  have hu := u_le_of_unit hwd
  have hu0 := φ.u_nonneg
  obtain ⟨r5, r6⟩ := cx_root hd hwd hre him hs
  obtain ⟨-, f2, -⟩ := safe_fits hs
  have hT := div_small hφ hd hwd hA hθ (two_nr hφ) (by norm_num)
  have hT2 : |θ / 2| ≤ 401 / 200 := by rw [abs_div, abs_two]; linarith
  exact (from_polar hd hwd he hed f2 r5 r6 hT (by linarith) (by linarith) (by linarith)).mono
    (mul_le_mul_of_nonneg_right (by linarith) f2.pos.le)

include hφ hd hwd he hed hB hre him hs hz in
/-- **The square root**: the principal one, up to a relative error. -/
theorem C98_sqrt : CxWithin z.sqrt ((complexOf z) ^ ((1 / 2 : ℝ) : ℂ)) (16 * d * Real.sqrt ‖complexOf z‖) := by
  have hpi := Real.pi_lt_d2
  have hab := Complex.abs_arg_le_pi (complexOf z)
  rw [polar_cpow (Complex.slitPlane_ne_zero hz), ← Real.sqrt_eq_rpow, show (1 / 2 : ℝ) * (complexOf z).arg = (complexOf z).arg / 2 by ring]
  exact sqrt_polar hφ hd hwd he hed hB hre him hs (cx_arg he hed hre him hz) (by linarith)

include hφ hd hwd he hed hB hre him hs in
/-- The square root of every number, the negative ones included, where the sign of a zero decides: one of the two square roots. -/
theorem C98_sqrt_squares (he' : ArgWithin φ e) : ∃ w : ℂ, w ^ 2 = complexOf z ∧ CxWithin z.sqrt w (16 * d * Real.sqrt ‖complexOf z‖) := by
  have hq0 := hs.pos
  have hne : z.im.val ≠ 0 ∨ z.re.val ≠ 0 := by
    by_contra h
    rw [not_or, not_not, not_not] at h
    have : complexOf z = 0 := Complex.ext h.2 h.1
    rw [this, _root_.norm_zero] at hq0
    exact lt_irrefl _ hq0
  obtain ⟨a1, a2, k, a3⟩ := he' z.im z.re him hre hne
  obtain ⟨θ, hθ⟩ : ∃ θ, θ = (complexOf z).arg + k * (2 * Real.pi) := ⟨_, rfl⟩
  have hA : Nr z.arg θ d := ⟨a1, by rw [hθ]; exact a3.trans hed⟩
  have h4 : |θ| ≤ 401 / 100 := by
    have := abs_le.mp (show |z.arg.val| ≤ 4 from a2)
    have := abs_le.mp hA.2
    rw [abs_le]; constructor <;> linarith
  refine ⟨_, ?_, sqrt_polar hφ hd hwd he hed hB hre him hs hA h4⟩
  obtain ⟨q, hq⟩ : ∃ q, q = ‖complexOf z‖ := ⟨_, rfl⟩
  have hss := Real.mul_self_sqrt (norm_nonneg (complexOf z))
  have c1 : Real.cos θ = Real.cos (complexOf z).arg := by rw [hθ, Real.cos_add_int_mul_two_pi]
  have s1 : Real.sin θ = Real.sin (complexOf z).arg := by rw [hθ, Real.sin_add_int_mul_two_pi]
  have c2 := Real.cos_sq_add_sin_sq (θ / 2)
  have c3 := Real.cos_two_mul (θ / 2)
  have s3 := Real.sin_two_mul (θ / 2)
  rw [show 2 * (θ / 2) = θ by ring] at c3 s3
  rw [← hq] at hss ⊢
  have e1 : complexOf z = ⟨q * Real.cos θ, q * Real.sin θ⟩ := by
    have := Complex.norm_mul_cos_arg (complexOf z)
    have := Complex.norm_mul_sin_arg (complexOf z)
    apply Complex.ext
    · rw [c1, hq]; exact (Complex.norm_mul_cos_arg _).symm
    · rw [s1, hq]; exact (Complex.norm_mul_sin_arg _).symm
  rw [e1, pow_two]
  apply Complex.ext
  · rw [Complex.mul_re]
    change Real.sqrt q * Real.cos (θ / 2) * (Real.sqrt q * Real.cos (θ / 2)) - Real.sqrt q * Real.sin (θ / 2) * (Real.sqrt q * Real.sin (θ / 2)) = q * Real.cos θ
    calc _ = Real.sqrt q * Real.sqrt q * (Real.cos (θ / 2) ^ 2 - Real.sin (θ / 2) ^ 2) := by ring
      _ = _ := by rw [hss, c3]; linear_combination -q * c2
  · rw [Complex.mul_im]
    change Real.sqrt q * Real.cos (θ / 2) * (Real.sqrt q * Real.sin (θ / 2)) + Real.sqrt q * Real.sin (θ / 2) * (Real.sqrt q * Real.cos (θ / 2)) = q * Real.sin θ
    calc _ = Real.sqrt q * Real.sqrt q * (2 * Real.sin (θ / 2) * Real.cos (θ / 2)) := by ring
      _ = _ := by rw [hss, s3]

include hφ hd hwd he hed hB hre him hs hz in
/-- **The cube root**: the principal one. -/
theorem C98_cbrt : CxWithin z.cbrt ((complexOf z) ^ ((1 / 3 : ℝ) : ℂ)) (16 * d * ‖complexOf z‖ ^ (1 / 3 : ℝ)) := by
  have hu := u_le_of_unit hwd
  have hu0 := φ.u_nonneg
  have hw0 : 0 ≤ unit φ := unit_nonneg
  obtain ⟨n1, n2⟩ := cx_norm hre him hs
  have hA := cx_arg he hed hre him hz
  obtain ⟨-, -, f3⟩ := safe_fits hs
  have hpi := Real.pi_lt_d2
  have hab := Complex.abs_arg_le_pi (complexOf z)
  rw [polar_cpow (Complex.slitPlane_ne_zero hz), show (1 / 3 : ℝ) * (complexOf z).arg = (complexOf z).arg / 3 by ring]
  obtain ⟨q, hq⟩ : ∃ q, q = ‖complexOf z‖ := ⟨_, rfl⟩
  have hq0 : 0 < q := by rw [hq]; exact hs.pos
  rw [← hq] at n2 f3 ⊢
  obtain ⟨m, hm⟩ : ∃ m, m = q ^ (1 / 3 : ℝ) := ⟨_, rfl⟩
  rw [← hm] at f3 ⊢
  have hm0 := f3.pos
  have hn := abs_le.mp n2
  have huq : φ.u * q ≤ 1 / 1000000 * q := mul_le_mul_of_nonneg_right (hu.trans hd) hq0.le
  have hv0 : 0 < z.norm.val := by linarith
  obtain ⟨c1, c2⟩ := he.cbrt z.norm n1 hv0 (norm_normal hu0 (safe_fits hs).1.under (by rw [← hq]; linarith))
  -- the root of the quotient is closer to one than the quotient
  obtain ⟨p, hp⟩ : ∃ p, p = z.norm.val / q := ⟨_, rfl⟩
  have hp0 : 0 < p := by rw [hp]; positivity
  have hp1 : |p - 1| ≤ 5 * φ.u := by
    have : p - 1 = (z.norm.val - q) / q := by rw [hp]; field_simp
    rw [this, abs_div, abs_of_pos hq0, div_le_iff₀ hq0]; exact n2
  have hpq : z.norm.val = p * q := by rw [hp]; field_simp
  have hp2 : |p ^ (1 / 3 : ℝ) - 1| ≤ 5 * φ.u := by
    have b := abs_le.mp hp1
    rcases le_total p 1 with h | h
    · have k1 : p ≤ p ^ (1 / 3 : ℝ) := by
        calc p = p ^ (1 : ℝ) := (Real.rpow_one p).symm
          _ ≤ p ^ (1 / 3 : ℝ) := Real.rpow_le_rpow_of_exponent_ge hp0 h (by norm_num)
      have k2 := Real.rpow_le_one hp0.le h (show (0 : ℝ) ≤ 1 / 3 by norm_num)
      rw [abs_le]; constructor <;> linarith
    · have k1 : p ^ (1 / 3 : ℝ) ≤ p := by
        calc p ^ (1 / 3 : ℝ) ≤ p ^ (1 : ℝ) := Real.rpow_le_rpow_of_exponent_le h (by norm_num)
          _ = p := Real.rpow_one p
      have k2 := Real.one_le_rpow h (show (0 : ℝ) ≤ 1 / 3 by norm_num)
      rw [abs_le]; constructor <;> linarith
  have hr : z.norm.val ^ (1 / 3 : ℝ) = p ^ (1 / 3 : ℝ) * m := by rw [hpq, Real.mul_rpow hp0.le hq0.le, hm]
  have b2 := abs_le.mp hp2
  have hr1 : |z.norm.val ^ (1 / 3 : ℝ) - m| ≤ 5 * φ.u * m := by
    rw [hr, show p ^ (1 / 3 : ℝ) * m - m = (p ^ (1 / 3 : ℝ) - 1) * m by ring, abs_mul, abs_of_pos hm0]
    exact mul_le_mul_of_nonneg_right hp2 hm0.le
  have hum : φ.u * m ≤ d * m := mul_le_mul_of_nonneg_right hu hm0.le
  have hdm : d * m ≤ 1 / 1000000 * m := mul_le_mul_of_nonneg_right hd hm0.le
  have he0 : 0 ≤ d := by linarith
  have hr2 : e * z.norm.val ^ (1 / 3 : ℝ) ≤ d * (1001 / 1000 * m) := by
    have b3 := abs_le.mp hr1
    have h0 : 0 ≤ z.norm.val ^ (1 / 3 : ℝ) := by positivity
    exact (mul_le_mul_of_nonneg_right hed h0).trans (mul_le_mul_of_nonneg_left (by linarith) he0)
  have hr3 : |(fcbrt z.norm).val - m| ≤ (7 * d) * m := by
    have b3 := abs_le.mp hr1
    have b4 := abs_le.mp (c2.trans hr2)
    rw [abs_le]; constructor <;> linarith
  have hT := div_three hφ hd hwd hA (hab.trans (by linarith))
  have hT2 : |(complexOf z).arg / 3| ≤ 315 / 300 := by rw [abs_div, abs_of_pos (show (0 : ℝ) < 3 by norm_num)]; linarith
  exact (from_polar hd hwd he hed f3 c1 hr3 hT (by linarith) (by linarith) (by linarith)).mono
    (mul_le_mul_of_nonneg_right (by linarith) f3.pos.le)

include hd hwd he hed hre him hs hz in
/-- **The logarithm**: the principal one. -/
theorem C98_ln : CxWithin z.ln (Complex.log (complexOf z)) (12 * d * (1 + |Real.log ‖complexOf z‖|)) := by
  have hu := u_le_of_unit hwd
  have hu0 := φ.u_nonneg
  obtain ⟨n1, n2⟩ := cx_norm hre him hs
  have hA := cx_arg he hed hre him hz
  obtain ⟨q, hq⟩ : ∃ q, q = ‖complexOf z‖ := ⟨_, rfl⟩
  have hq0 : 0 < q := by rw [hq]; exact hs.pos
  rw [← hq] at n2 ⊢
  have hn := abs_le.mp n2
  have huq : φ.u * q ≤ 1 / 1000000 * q := mul_le_mul_of_nonneg_right (hu.trans hd) hq0.le
  have hv0 : 0 < z.norm.val := by linarith
  obtain ⟨c1, c2⟩ := he.ln z.norm n1 hv0 (norm_normal hu0 (safe_fits hs).1.under (by rw [← hq]; linarith))
  have hp1 : |z.norm.val / q - 1| ≤ 5 * φ.u := by
    have : z.norm.val / q - 1 = (z.norm.val - q) / q := by field_simp
    rw [this, abs_div, abs_of_pos hq0, div_le_iff₀ hq0]; exact n2
  have hl := log_near hp1 (by linarith)
  rw [Real.log_div hv0.ne' hq0.ne'] at hl
  have hl' := abs_le.mp hl
  obtain ⟨L, hL⟩ : ∃ L, L = |Real.log q| := ⟨_, rfl⟩
  have hL0 : 0 ≤ L := hL ▸ abs_nonneg _
  have hln : |Real.log z.norm.val| ≤ L + 10 * φ.u := by
    have := abs_sub_abs_le_abs_sub (Real.log z.norm.val) (Real.log q)
    rw [hL]; linarith
  have he0 : 0 ≤ d := by linarith
  have hb : e * (1 + |Real.log z.norm.val|) ≤ d * (1 + L + 10 * φ.u) := by
    exact (mul_le_mul_of_nonneg_right hed (by positivity)).trans (mul_le_mul_of_nonneg_left (by linarith) he0)
  have hdu : d * φ.u ≤ 1 / 1000000 * d := by
    rw [mul_comm]; exact mul_le_mul_of_nonneg_right (hu.trans hd) he0
  have hdL : 0 ≤ d * L := by positivity
  have c3 := abs_le.mp (c2.trans hb)
  rw [← hL]
  refine ⟨⟨c1, ?_⟩, hA.1, ?_⟩
  · rw [Complex.log_re, ← hq]
    change |(fln z.norm).val - _| ≤ _
    rw [abs_le]; constructor <;> nlinarith
  · rw [Complex.log_im]
    refine hA.2.trans ?_
    nlinarith

end

include hd hwd he hed in
/-- **The exponential function**, at a number within `η` of `ω`. -/
theorem C98_exp {w : Cx (Ieee φ)} {ω : ℂ} {η : ℝ} (hw : CxWithin w ω η) (hη : η ≤ 1 / 4000) (hX : |ω.re| + η ≤ X) (hB' : |ω.im| + η ≤ B)
    (hF : Fits φ (Real.exp ω.re)) : CxWithin w.exp (Complex.exp ω) ((5 * d + 4 * η) * ‖Complex.exp ω‖) := by
  have hu := u_le_of_unit hwd
  have hu0 := φ.u_nonneg
  have hd0 : 0 ≤ d := by linarith
  obtain ⟨a, ha⟩ : ∃ a, a = Real.exp ω.re := ⟨_, rfl⟩
  have ha0 : 0 < a := ha ▸ Real.exp_pos _
  have hη0 : 0 ≤ η := (abs_nonneg _).trans hw.1.2
  have h1 : Nr w.re ω.re η := hw.1
  obtain ⟨c1, c2⟩ := he.exp w.re hw.1.1 ((h1.val_le le_rfl).trans hX)
  have h2 : |Real.exp w.re.val - a| ≤ 2 * η * a := by
    have e1 : Real.exp w.re.val - a = (Real.exp (w.re.val - ω.re) - 1) * a := by rw [Real.exp_sub, ha]; field_simp
    have e2 := Real.abs_exp_sub_one_le (x := w.re.val - ω.re) (hw.1.2.trans (by linarith))
    rw [e1, abs_mul, abs_of_pos ha0]
    exact mul_le_mul_of_nonneg_right (e2.trans (by linarith [hw.1.2])) ha0.le
  have h3 := abs_le.mp h2
  have hηa : η * a ≤ 1 / 4000 * a := mul_le_mul_of_nonneg_right hη ha0.le
  have h4 : e * Real.exp w.re.val ≤ d * (1001 / 1000 * a) :=
    (mul_le_mul_of_nonneg_right hed (Real.exp_pos _).le).trans (mul_le_mul_of_nonneg_left (by linarith) hd0)
  have h5 : |(fexp w.re).val - a| ≤ (1001 / 1000 * d + 2 * η) * a := by
    have h6 := abs_le.mp (c2.trans h4)
    rw [abs_le]; constructor <;> linarith
  rw [← ha] at hF
  have h := from_polar hd hwd he hed hF c1 h5 (show Nr w.im ω.im η from hw.2) hB' (by linarith) (by linarith)
  have e1 : Complex.exp ω = ⟨a * Real.cos ω.im, a * Real.sin ω.im⟩ := by
    apply Complex.ext
    · rw [Complex.exp_re, ha]
    · rw [Complex.exp_im, ha]
  rw [Complex.norm_exp, ← ha, e1]
  exact h.mono (mul_le_mul_of_nonneg_right (by linarith) ha0.le)

include hφ hd hwd he hed in
/-- **Powers with real exponents.**  `K` is `1 + |x| (1 + |log |z||)`. -/
theorem C98_powf (hre : z.re.Finite) (him : z.im.Finite) (hs : Safe φ 2 lo ‖complexOf z‖) (hz : complexOf z ∈ Complex.slitPlane)
    {x : Ieee φ} (hx : x.Finite) {K : ℝ} (hK : 1 + |x.val| * (1 + |Real.log ‖complexOf z‖|) ≤ K) (hK1 : K ≤ 200000) (hK2 : d * K ≤ 1 / 64000)
    (hX : |x.val * Real.log ‖complexOf z‖| + 1 / 4000 ≤ X) (hB' : |x.val * (complexOf z).arg| + 1 / 4000 ≤ B)
    (hF : Fits φ (‖complexOf z‖ ^ x.val)) :
    CxWithin (z.powf x) (complexOf z ^ (x.val : ℂ)) (69 * d * K * ‖complexOf z‖ ^ x.val) := by
  have hu := u_le_of_unit hwd
  have hu0 := φ.u_nonneg
  have hd0 : 0 ≤ d := by linarith
  have hL := C98_ln hd hwd he hed hre him hs hz
  have hpi := Real.pi_lt_d2
  have hab := Complex.abs_arg_le_pi (complexOf z)
  have hz0 := Complex.slitPlane_ne_zero hz
  have hq0 : 0 < ‖complexOf z‖ := hs.pos
  obtain ⟨L, hLd⟩ : ∃ L, L = |Real.log ‖complexOf z‖| := ⟨_, rfl⟩
  have hL0 : 0 ≤ L := hLd ▸ abs_nonneg _
  rw [← hLd] at hL hK
  have hx0 := abs_nonneg x.val
  have hxL : 0 ≤ |x.val| * L := by positivity
  have hK0 : 1 ≤ K := by nlinarith
  have h12 : 12 * d * (1 + L) * |x.val| ≤ 12 * (d * K) := by
    have := mul_le_mul_of_nonneg_left hK hd0
    nlinarith
  have hdx : d * |x.val| ≤ d * K := mul_le_mul_of_nonneg_left (by nlinarith) hd0
  have hwK : unit φ * (4 * K) ≤ 4 * (d * K) := by
    have := mul_le_mul_of_nonneg_right hwd (show 0 ≤ 4 * K by linarith)
    linarith
  have hdK : 0 ≤ d * K := by positivity
  have hP1 := (show Nr z.ln.re _ _ from hL.1).mul hφ (Nr.exact hx) (A := L) (by rw [Complex.log_re, hLd]) (le_refl |x.val|) (M := 4 * K)
    (by nlinarith) (by linarith) (by linarith)
  have hAr := cx_arg he hed hre him hz
  have hP2 := (show Nr z.ln.im _ _ from hAr).mul hφ (Nr.exact hx) (A := 315 / 100) (hab.trans (by linarith)) (le_refl |x.val|) (M := 4 * K)
    (by nlinarith) (by linarith) (by linarith)
  have hW : CxWithin (z.ln * x) ⟨x.val * Real.log ‖complexOf z‖, x.val * (complexOf z).arg⟩ (16 * (d * K)) := by
    refine ⟨?_, ?_⟩
    · rw [Complex.log_re, mul_comm (Real.log _)] at hP1
      exact hP1.mono (by linarith)
    · rw [mul_comm (Complex.arg _)] at hP2
      exact hP2.mono (by linarith)
  have e1 : (⟨x.val * Real.log ‖complexOf z‖, x.val * (complexOf z).arg⟩ : ℂ) = Complex.log (complexOf z) * (x.val : ℂ) := by
    apply Complex.ext
    · simp [Complex.log_re, mul_comm]
    · simp [Complex.log_im, mul_comm]
  have e2 : Real.exp (x.val * Real.log ‖complexOf z‖) = ‖complexOf z‖ ^ x.val := by rw [Real.rpow_def_of_pos hq0, mul_comm]
  have key := C98_exp hd hwd he hed hW (by linarith) (by change |x.val * _| + _ ≤ X; linarith) (by change |x.val * _| + _ ≤ B; linarith)
    (by change Fits φ (Real.exp (x.val * _)); rw [e2]; exact hF)
  rw [Complex.norm_exp] at key
  change CxWithin _ _ ((5 * d + 4 * (16 * (d * K))) * Real.exp (x.val * Real.log ‖complexOf z‖)) at key
  rw [e2, e1, ← Complex.cpow_def_of_ne_zero hz0] at key
  refine key.mono (mul_le_mul_of_nonneg_right ?_ hF.pos.le)
  have : d * 1 ≤ d * K := mul_le_mul_of_nonneg_left hK0 hd0
  linarith

omit [Lib φ] in
theorem finite_not {x : Ieee φ} (h : x.Finite) : isInfinite x = false ∧ isFinite x = true := by
  obtain ⟨s, m, hm, rfl⟩ := h
  exact ⟨rfl, rfl⟩

omit [Lib φ] in
theorem beq_zero_iff {x : Ieee φ} (h : x.Finite) : (x == 0) = true ↔ x.val = 0 := by
  obtain ⟨s, m, hm, rfl⟩ := h
  rw [fin_beq_zero, decide_eq_true_eq]
  cases s <;> simp [Ieee.val, signed]

theorem cosh_cases (z : Cx (Ieee φ)) (hre : z.re.Finite) (him : z.im.Finite) :
    z.cosh = Cx.new (fcosh z.re * fcos z.im) (fsinh z.re * fsin z.im) ∨ (z.re.val = 0 ∧ z.im.val = 0 ∧ z.cosh = Cx.new 1 z.im) := by
  have h1 := finite_not hre
  have h2 := finite_not him
  unfold Cx.cosh
  rw [h1.1, h1.2, h2.2]
  by_cases h : (z.re == 0 && z.im == 0) = true
  · right
    rw [Bool.and_eq_true] at h
    refine ⟨?_, ?_, ?_⟩
    · exact (beq_zero_iff hre).mp h.1
    · exact (beq_zero_iff him).mp h.2
    · simp [h.1, h.2]
  · left
    rw [Bool.not_eq_true] at h
    simp [h]

theorem sinh_eq (z : Cx (Ieee φ)) (hre : z.re.Finite) (him : z.im.Finite) :
    z.sinh = Cx.new (fsinh z.re * fcos z.im) (fcosh z.re * fsin z.im) := by
  have h1 := finite_not hre
  have h2 := finite_not him
  unfold Cx.sinh
  simp [h1, h2]

theorem complex_cosh (ζ : ℂ) : Complex.cosh ζ = ⟨Real.cosh ζ.re * Real.cos ζ.im, Real.sinh ζ.re * Real.sin ζ.im⟩ := by
  conv_lhs => rw [← Complex.re_add_im ζ, Complex.cosh_add, Complex.cosh_mul_I, Complex.sinh_mul_I]
  rw [← Complex.ofReal_cosh, ← Complex.ofReal_sinh, ← Complex.ofReal_cos, ← Complex.ofReal_sin]
  apply Complex.ext <;>
    simp only [Complex.add_re, Complex.add_im, Complex.mul_re, Complex.mul_im, Complex.ofReal_re, Complex.ofReal_im, Complex.I_re, Complex.I_im] <;> ring

theorem complex_sinh (ζ : ℂ) : Complex.sinh ζ = ⟨Real.sinh ζ.re * Real.cos ζ.im, Real.cosh ζ.re * Real.sin ζ.im⟩ := by
  conv_lhs => rw [← Complex.re_add_im ζ, Complex.sinh_add, Complex.cosh_mul_I, Complex.sinh_mul_I]
  rw [← Complex.ofReal_cosh, ← Complex.ofReal_sinh, ← Complex.ofReal_cos, ← Complex.ofReal_sin]
  apply Complex.ext <;>
    simp only [Complex.add_re, Complex.add_im, Complex.mul_re, Complex.mul_im, Complex.ofReal_re, Complex.ofReal_im, Complex.I_re, Complex.I_im] <;> ring

theorem abs_sinh_le (x : ℝ) : |Real.sinh x| ≤ Real.cosh x := by
  have := Real.exp_pos x
  have := Real.exp_pos (-x)
  rw [Real.sinh_eq, Real.cosh_eq, abs_le]
  constructor <;> linarith

section
variable (hre : z.re.Finite) (him : z.im.Finite) (hX : |z.re.val| ≤ X) (hB' : |z.im.val| ≤ B) (hF : Fits φ (Real.cosh z.re.val))
include hd hwd he hed hre him hX hB' hF

/-- **The hyperbolic cosine.**  The error is relative to `cosh (re z)`, which bounds the modulus of the result. -/
theorem C98_cosh : CxWithin z.cosh (Complex.cosh (complexOf z)) (5 * d * Real.cosh z.re.val) := by
  have hu := u_le_of_unit hwd
  have hu0 := φ.u_nonneg
  have hd0 : 0 ≤ d := by linarith
  obtain ⟨c1, c2⟩ := he.cosh z.re hre hX
  obtain ⟨s1, s2⟩ := he.sinh z.re hre hX
  obtain ⟨⟨t1, t2⟩, t3, t4⟩ := he.sincos z.im him hB'
  have hp := hF.pos
  rcases cosh_cases z hre him with h | ⟨h1, h2, h⟩
  · rw [h, complex_cosh]
    exact ⟨(mul_scaled (hu.trans hd) hF c1 c2 (by rw [abs_of_pos hp]) ⟨t3, t4⟩ (Real.abs_cos_le_one _) (by linarith) (by linarith)).mono
        (mul_le_mul_of_nonneg_right (by linarith) hp.le),
      (mul_scaled (hu.trans hd) hF s1 s2 (abs_sinh_le _) ⟨t1, t2⟩ (Real.abs_sin_le_one _) (by linarith) (by linarith)).mono
        (mul_le_mul_of_nonneg_right (by linarith) hp.le)⟩
  · rw [h, complex_cosh]
    change CxWithin _ ⟨Real.cosh z.re.val * Real.cos z.im.val, Real.sinh z.re.val * Real.sin z.im.val⟩ _
    have h5 : 0 ≤ 5 * d * Real.cosh z.re.val := by positivity
    refine ⟨⟨finite_one, ?_⟩, him, ?_⟩
    · change |(1 : Ieee φ).val - Real.cosh z.re.val * Real.cos z.im.val| ≤ _
      rw [val_one, h2, Real.cos_zero, mul_one, h1, Real.cosh_zero, sub_self, abs_zero]
      rw [h1, Real.cosh_zero] at h5; exact h5
    · change |z.im.val - Real.sinh z.re.val * Real.sin z.im.val| ≤ _
      rw [h2, Real.sin_zero, mul_zero, sub_self, abs_zero]
      exact h5

/-- **The hyperbolic sine.** -/
theorem C98_sinh : CxWithin z.sinh (Complex.sinh (complexOf z)) (5 * d * Real.cosh z.re.val) := by
  have hu := u_le_of_unit hwd
  have hu0 := φ.u_nonneg
  have hd0 : 0 ≤ d := by linarith
  obtain ⟨c1, c2⟩ := he.cosh z.re hre hX
  obtain ⟨s1, s2⟩ := he.sinh z.re hre hX
  obtain ⟨⟨t1, t2⟩, t3, t4⟩ := he.sincos z.im him hB'
  have hp := hF.pos
  rw [sinh_eq z hre him, complex_sinh]
  exact ⟨(mul_scaled (hu.trans hd) hF s1 s2 (abs_sinh_le _) ⟨t3, t4⟩ (Real.abs_cos_le_one _) (by linarith) (by linarith)).mono
      (mul_le_mul_of_nonneg_right (by linarith) hp.le),
    (mul_scaled (hu.trans hd) hF c1 c2 (by rw [abs_of_pos hp]) ⟨t1, t2⟩ (Real.abs_sin_le_one _) (by linarith) (by linarith)).mono
      (mul_le_mul_of_nonneg_right (by linarith) hp.le)⟩

end

section
variable (hre : z.re.Finite) (him : z.im.Finite) (hX : |z.im.val| ≤ X) (hB' : |z.re.val| ≤ B) (hF : Fits φ (Real.cosh z.im.val))
include hd hwd he hed hre him hX hB' hF

omit hd hwd he hed hre him hX hB' hF [Lib φ] in
theorem cx_finite_neg {x : Ieee φ} (h : x.Finite) : (-x).Finite := by
  obtain ⟨s, m, hm, rfl⟩ := h
  exact ⟨_, _, _, rfl⟩

/-- **The cosine.** -/
theorem C98_cos : CxWithin z.cos (Complex.cos (complexOf z)) (5 * d * Real.cosh z.im.val) := by
  have h := C98_cosh (z := Cx.new (-z.im) z.re) hd hwd he hed (cx_finite_neg him) hre (by change |(-z.im).val| ≤ X; rw [val_neg, abs_neg]; exact hX) hB'
    (by change Fits φ (Real.cosh (-z.im).val); rw [val_neg, Real.cosh_neg]; exact hF)
  have e1 : complexOf (Cx.new (-z.im) z.re) = complexOf z * Complex.I := by
    apply Complex.ext
    · rw [Complex.mul_I_re]; exact val_neg _
    · rw [Complex.mul_I_im]; rfl
  rw [e1, Complex.cosh_mul_I] at h
  have e2 : Real.cosh (Cx.new (-z.im) z.re).re.val = Real.cosh z.im.val := by
    change Real.cosh (-z.im).val = _; rw [val_neg, Real.cosh_neg]
  rw [e2] at h
  exact h

/-- **The sine.** -/
theorem C98_sin : CxWithin z.sin (Complex.sin (complexOf z)) (5 * d * Real.cosh z.im.val) := by
  have h := C98_sinh (z := Cx.new (-z.im) z.re) hd hwd he hed (cx_finite_neg him) hre (by change |(-z.im).val| ≤ X; rw [val_neg, abs_neg]; exact hX) hB'
    (by change Fits φ (Real.cosh (-z.im).val); rw [val_neg, Real.cosh_neg]; exact hF)
  have e1 : complexOf (Cx.new (-z.im) z.re) = complexOf z * Complex.I := by
    apply Complex.ext
    · rw [Complex.mul_I_re]; exact val_neg _
    · rw [Complex.mul_I_im]; rfl
  rw [e1, Complex.sinh_mul_I] at h
  have e2 : Real.cosh (Cx.new (-z.im) z.re).re.val = Real.cosh z.im.val := by
    change Real.cosh (-z.im).val = _; rw [val_neg, Real.cosh_neg]
  rw [e2] at h
  obtain ⟨⟨a1, a2⟩, b1, b2⟩ := h
  rw [Complex.mul_I_re] at a2
  rw [Complex.mul_I_im] at b2
  refine ⟨⟨b1, b2⟩, cx_finite_neg a1, ?_⟩
  change |(-(Cx.new (-z.im) z.re).sinh.re).val - _| ≤ _
  rw [val_neg, ← abs_neg]
  convert a2 using 2
  ring

end

end

/-! ### products and quotients -/

section
variable {a : ℝ} (hu : φ.u ≤ 1 / 1000000) (ha : Fits φ a)
include hu ha

theorem prod_scaled {x y : Ieee φ} (hx : x.Finite) (hy : y.Finite) (h : |x.val * y.val| ≤ a) :
    (x * y).Finite ∧ |(x * y).val - x.val * y.val| ≤ 203 / 100 * φ.u * a := by
  have hp := ha.pos
  obtain ⟨r1, r2⟩ := ha.round hu (z := x.val * y.val) (by linarith)
  have hf := finite_mul_of hx hy r1
  exact ⟨hf, by rw [val_mul hf]; exact r2⟩

theorem sum_scaled {x y : Ieee φ} {p q : ℝ} (hx : x.Finite ∧ |x.val - p| ≤ 203 / 100 * φ.u * a)
    (hy : y.Finite ∧ |y.val - q| ≤ 203 / 100 * φ.u * a) (h : |p + q| ≤ a) :
    (x + y).Finite ∧ |(x + y).val - (p + q)| ≤ 7 * φ.u * a := by
  have hp := ha.pos
  have hu0 := φ.u_nonneg
  have hua : φ.u * a ≤ 1 / 1000000 * a := mul_le_mul_of_nonneg_right hu hp.le
  have hua0 : 0 ≤ φ.u * a := by positivity
  have h1 := abs_le.mp hx.2
  have h2 := abs_le.mp hy.2
  have h3 := abs_le.mp h
  obtain ⟨r1, r2⟩ := ha.round hu (z := x.val + y.val) (by rw [abs_le]; constructor <;> linarith)
  have hf := finite_add_of hx.1 hy.1 r1
  refine ⟨hf, ?_⟩
  rw [val_add hf]
  have h4 := abs_le.mp r2
  rw [abs_le]; constructor <;> linarith

theorem quot_scaled {x y : Ieee φ} {p n q : ℝ} (hn : 0 < n) (hx : x.Finite ∧ |x.val - p| ≤ 7 * φ.u * (a * n))
    (hy : y.Finite ∧ |y.val - n| ≤ 7 * φ.u * n) (h : p = q * n) (hq : |q| ≤ a) :
    (x / y).Finite ∧ |(x / y).val - q| ≤ 17 * φ.u * a := by
  have hp := ha.pos
  have hu0 := φ.u_nonneg
  have hun : φ.u * n ≤ 1 / 1000000 * n := mul_le_mul_of_nonneg_right hu hn.le
  have hua : φ.u * a ≤ 1 / 1000000 * a := mul_le_mul_of_nonneg_right hu hp.le
  have hua0 : 0 ≤ φ.u * a := by positivity
  have hy1 := abs_le.mp hy.2
  have hy0 : 99 / 100 * n ≤ y.val := by linarith
  have hypos : 0 < y.val := by linarith
  have hdist : |x.val / y.val - q| ≤ 1415 / 100 * φ.u * a := by
    have e1 : x.val / y.val - q = ((x.val - p) - q * (y.val - n)) / y.val := by rw [h]; field_simp; ring
    rw [e1, abs_div, abs_of_pos hypos, div_le_iff₀ hypos]
    have t1 : |q * (y.val - n)| ≤ a * (7 * φ.u * n) := by
      rw [abs_mul]; exact mul_le_mul hq hy.2 (abs_nonneg _) hp.le
    have t2 : 1415 / 100 * φ.u * a * (999 / 1000 * n) ≤ 1415 / 100 * φ.u * a * y.val :=
      mul_le_mul_of_nonneg_left (by linarith) (by positivity)
    have t3 : 0 ≤ φ.u * a * n := by positivity
    calc _ ≤ |x.val - p| + |q * (y.val - n)| := abs_sub _ _
      _ ≤ 7 * φ.u * (a * n) + a * (7 * φ.u * n) := add_le_add hx.2 t1
      _ ≤ _ := by linarith
  have hd := abs_le.mp hdist
  have hq' := abs_le.mp hq
  obtain ⟨r1, r2⟩ := ha.round hu (z := x.val / y.val) (by rw [abs_le]; constructor <;> linarith)
  have hf := finite_div_of hx.1 hy.1 hypos.ne' r1
  refine ⟨hf, ?_⟩
  rw [(val_div hf hy.1).1]
  have h4 := abs_le.mp r2
  rw [abs_le]; constructor <;> linarith
end

section
variable {z w : Cx (Ieee φ)} (hu : φ.u ≤ 1 / 1000000) (hre : z.re.Finite) (him : z.im.Finite) (hre' : w.re.Finite) (him' : w.im.Finite)
include hu hre him hre' him'

omit hu hre him hre' him' in
theorem cx_bounds : |z.re.val| ≤ ‖complexOf z‖ ∧ |z.im.val| ≤ ‖complexOf z‖ :=
  ⟨Complex.abs_re_le_norm (complexOf z), Complex.abs_im_le_norm (complexOf z)⟩

/-- **Products.** -/
theorem C98_mul (hF : Fits φ (‖complexOf z‖ * ‖complexOf w‖)) :
    CxWithin (z * w) (complexOf z * complexOf w) (7 * φ.u * (‖complexOf z‖ * ‖complexOf w‖)) := by
  obtain ⟨z1, z2⟩ := cx_bounds (z := z)
  obtain ⟨w1, w2⟩ := cx_bounds (z := w)
  have hb : ∀ {s t : ℝ}, |s| ≤ ‖complexOf z‖ → |t| ≤ ‖complexOf w‖ → |s * t| ≤ ‖complexOf z‖ * ‖complexOf w‖ := fun h1 h2 => by
    rw [abs_mul]; exact mul_le_mul h1 h2 (abs_nonneg _) (norm_nonneg _)
  have q1 := prod_scaled hu hF hre hre' (hb z1 w1)
  have q2 := prod_scaled hu hF him him' (hb z2 w2)
  have q3 := prod_scaled hu hF hre him' (hb z1 w2)
  have q4 := prod_scaled hu hF him hre' (hb z2 w1)
  have hn := norm_mul (complexOf z) (complexOf w)
  have n1 := Complex.abs_re_le_norm (complexOf z * complexOf w)
  have n2 := Complex.abs_im_le_norm (complexOf z * complexOf w)
  rw [hn, Complex.mul_re] at n1
  rw [hn, Complex.mul_im] at n2
  refine ⟨?_, ?_⟩
  · rw [Complex.mul_re]
    exact sum_scaled hu hF (p := z.re.val * w.re.val) (q := -(z.im.val * w.im.val)) q1
      ⟨cx_finite_neg q2.1, by rw [val_neg, ← abs_neg]; convert q2.2 using 2; ring⟩ (by rw [← sub_eq_add_neg]; exact n1)
  · rw [Complex.mul_im]
    exact sum_scaled hu hF q3 q4 n2

/-- **Quotients.** -/
theorem C98_div (hF : Fits φ (‖complexOf z‖ * ‖complexOf w‖)) (hF2 : Fits φ (‖complexOf w‖ * ‖complexOf w‖))
    (hF3 : Fits φ (‖complexOf z‖ / ‖complexOf w‖)) :
    CxWithin (z / w) (complexOf z / complexOf w) (17 * φ.u * (‖complexOf z‖ / ‖complexOf w‖)) := by
  obtain ⟨z1, z2⟩ := cx_bounds (z := z)
  obtain ⟨w1, w2⟩ := cx_bounds (z := w)
  have hw0 : ‖complexOf w‖ ≠ 0 := fun h => by have := hF2.pos; rw [h, mul_zero] at this; exact lt_irrefl _ this
  have hwn : complexOf w ≠ 0 := fun h => hw0 (by rw [h, _root_.norm_zero])
  have hb : ∀ {s t : ℝ}, |s| ≤ ‖complexOf z‖ → |t| ≤ ‖complexOf w‖ → |s * t| ≤ ‖complexOf z‖ * ‖complexOf w‖ := fun h1 h2 => by
    rw [abs_mul]; exact mul_le_mul h1 h2 (abs_nonneg _) (norm_nonneg _)
  have hb2 : ∀ {s t : ℝ}, |s| ≤ ‖complexOf w‖ → |t| ≤ ‖complexOf w‖ → |s * t| ≤ ‖complexOf w‖ * ‖complexOf w‖ := fun h1 h2 => by
    rw [abs_mul]; exact mul_le_mul h1 h2 (abs_nonneg _) (norm_nonneg _)
  have q1 := prod_scaled hu hF hre hre' (hb z1 w1)
  have q2 := prod_scaled hu hF him him' (hb z2 w2)
  have q3 := prod_scaled hu hF hre him' (hb z1 w2)
  have q4 := prod_scaled hu hF him hre' (hb z2 w1)
  have d1 := prod_scaled hu hF2 hre' hre' (hb2 w1 w1)
  have d2 := prod_scaled hu hF2 him' him' (hb2 w2 w2)
  have hsq : w.re.val * w.re.val + w.im.val * w.im.val = ‖complexOf w‖ * ‖complexOf w‖ := by
    rw [Complex.norm_mul_self_eq_normSq, Complex.normSq_apply]; rfl
  have D := sum_scaled hu hF2 d1 d2 (by rw [hsq, abs_of_pos hF2.pos])
  rw [hsq] at D
  have hn := norm_mul (complexOf z) (starRingEnd ℂ (complexOf w))
  have n1 := Complex.abs_re_le_norm (complexOf z * starRingEnd ℂ (complexOf w))
  have n2 := Complex.abs_im_le_norm (complexOf z * starRingEnd ℂ (complexOf w))
  rw [hn, Complex.norm_conj, Complex.mul_re, Complex.conj_re, Complex.conj_im] at n1
  rw [hn, Complex.norm_conj, Complex.mul_im, Complex.conj_re, Complex.conj_im] at n2
  have N1 := sum_scaled hu hF q1 q2 (by convert n1 using 2; change _ = z.re.val * w.re.val - z.im.val * -w.im.val; ring)
  have N2 := sum_scaled hu hF (p := z.im.val * w.re.val) (q := -(z.re.val * w.im.val)) q4
      ⟨cx_finite_neg q3.1, by rw [val_neg, ← abs_neg]; convert q3.2 using 2; ring⟩
      (by convert n2 using 2; change _ = z.re.val * -w.im.val + z.im.val * w.re.val; ring)
  have hsize : ‖complexOf z‖ / ‖complexOf w‖ * (‖complexOf w‖ * ‖complexOf w‖) = ‖complexOf z‖ * ‖complexOf w‖ := by field_simp
  have k1 := Complex.abs_re_le_norm (complexOf z / complexOf w)
  have k2 := Complex.abs_im_le_norm (complexOf z / complexOf w)
  rw [norm_div] at k1 k2
  have hcd : complexOf z / complexOf w * ((‖complexOf w‖ * ‖complexOf w‖ : ℝ) : ℂ) = complexOf z * starRingEnd ℂ (complexOf w) := by
    rw [Complex.norm_mul_self_eq_normSq, ← Complex.mul_conj]; field_simp
  have r1 := congrArg Complex.re hcd
  have r2 := congrArg Complex.im hcd
  rw [Complex.re_mul_ofReal, Complex.mul_re, Complex.conj_re, Complex.conj_im] at r1
  rw [Complex.im_mul_ofReal, Complex.mul_im, Complex.conj_re, Complex.conj_im] at r2
  rw [← hsize] at N1 N2
  exact ⟨quot_scaled hu hF3 hF2.pos N1 D (by rw [r1]; change _ = z.re.val * w.re.val - z.im.val * -w.im.val; ring) k1,
    quot_scaled hu hF3 hF2.pos N2 D (by rw [r2]; change _ = z.re.val * -w.im.val + z.im.val * w.re.val; ring) k2⟩

end

/-! ### `f64` -/

theorem exp_two_le : Real.exp 2 ≤ 8 := by
  have h := Real.exp_one_lt_d9
  have h0 := Real.exp_pos 1
  rw [show (2 : ℝ) = 1 + 1 by norm_num, Real.exp_add]
  nlinarith

theorem exp_large {x : ℝ} (h : x ≤ 600) : Real.exp x ≤ 2 ^ (900 : ℤ) := by
  calc Real.exp x ≤ Real.exp ((300 : ℕ) * 2) := Real.exp_le_exp.mpr (by norm_num; exact h)
    _ = Real.exp 2 ^ 300 := Real.exp_nat_mul 2 300
    _ ≤ 8 ^ 300 := pow_le_pow_left₀ (Real.exp_pos _).le exp_two_le _
    _ = 2 ^ (900 : ℤ) := by rw [show (8 : ℝ) = 2 ^ 3 by norm_num, ← pow_mul]; exact (zpow_natCast (2 : ℝ) 900).symm

theorem exp_small {x : ℝ} (h : -600 ≤ x) : (2 : ℝ) ^ (-900 : ℤ) ≤ Real.exp x := by
  have h1 := exp_large (x := -x) (by linarith)
  rw [Real.exp_neg] at h1
  rw [zpow_neg, inv_le_comm₀ (by positivity) (Real.exp_pos _)]
  exact h1

theorem fits_exp {x : ℝ} (h : |x| ≤ 600) : Fits f64 (Real.exp x) := by
  have := abs_le.mp h
  exact fits64 ((zpow_le_zpow_right₀ one_le_two (by norm_num)).trans (exp_small this.1))
    ((exp_large this.2).trans (zpow_le_zpow_right₀ one_le_two (by norm_num)))

theorem cosh_large {x : ℝ} (h : |x| ≤ 600) : Real.cosh x ≤ 2 ^ (900 : ℤ) := by
  have := abs_le.mp h
  have h1 := exp_large this.2
  have h2 := exp_large (x := -x) (by linarith)
  rw [Real.cosh_eq]; linarith

theorem fits_cosh {x : ℝ} (h : |x| ≤ 600) : Fits f64 (Real.cosh x) := by
  refine fits64 (le_trans ?_ (Real.one_le_cosh x)) ((cosh_large h).trans (zpow_le_zpow_right₀ one_le_two (by norm_num)))
  exact zpow_le_one_of_nonpos₀ one_le_two (by norm_num)

/-- **Functions of complex numbers in `f64`**, with a library that is accurate to `2^-50`, for a number off the negative reals whose
modulus is between `2^-499` and `2^510`. -/
theorem C98_f64 [Lib f64] {e : ℝ} (he : ComplexLibrary f64 e 1000 600) (hed : e ≤ 2 ^ (-50 : ℤ)) {z : Cx (Ieee f64)}
    (hre : z.re.Finite) (him : z.im.Finite) (h1 : (2 : ℝ) ^ (-499 : ℤ) ≤ ‖complexOf z‖) (h2 : ‖complexOf z‖ ≤ 2 ^ (510 : ℤ))
    (hz : complexOf z ∈ Complex.slitPlane) :
    CxWithin z.sqrt (complexOf z ^ ((1 / 2 : ℝ) : ℂ)) (2 ^ (-46 : ℤ) * Real.sqrt ‖complexOf z‖) ∧
    CxWithin z.cbrt (complexOf z ^ ((1 / 3 : ℝ) : ℂ)) (2 ^ (-46 : ℤ) * ‖complexOf z‖ ^ (1 / 3 : ℝ)) ∧
    CxWithin z.ln (Complex.log (complexOf z)) (2 ^ (-46 : ℤ) * (1 + |Real.log ‖complexOf z‖|)) ∧
    CxWithin (Cx.fromPolarDecomposition z.polarDecomposition.1 z.polarDecomposition.2) (complexOf z) (2 ^ (-46 : ℤ) * ‖complexOf z‖) ∧
    ∀ x : Ieee f64, x.Finite → |x.val * Real.log ‖complexOf z‖| ≤ 500 → |x.val| ≤ 200 →
      CxWithin (z.powf x) (complexOf z ^ (x.val : ℂ)) (2 ^ (-43 : ℤ) * (1 + |x.val| * (1 + |Real.log ‖complexOf z‖|)) * ‖complexOf z‖ ^ x.val) := by
  have hwd : unit f64 ≤ 2 ^ (-50 : ℤ) := by
    refine unit64.trans ?_
    have h : (2 : ℝ) ^ (-1075 : ℤ) ≤ 2 ^ (-63 : ℤ) := zpow_le_zpow_right₀ one_le_two (by norm_num)
    norm_num at h ⊢
    linarith
  have hd : (2 : ℝ) ^ (-50 : ℤ) ≤ 1 / 1000000 := by norm_num
  have hs := safe64 (n := 2) (by norm_num) h1 h2
  have hB : (4 : ℝ) ≤ 1000 := by norm_num
  have hq0 : 0 < ‖complexOf z‖ := lt_of_lt_of_le (by positivity) h1
  have hle : (16 : ℝ) * 2 ^ (-50 : ℤ) ≤ 2 ^ (-46 : ℤ) := by norm_num
  have hle' : (12 : ℝ) * 2 ^ (-50 : ℤ) ≤ 2 ^ (-46 : ℤ) := by norm_num
  have hle'' : (10 : ℝ) * 2 ^ (-50 : ℤ) ≤ 2 ^ (-46 : ℤ) := by norm_num
  refine ⟨(C98_sqrt fine64 hd hwd he hed hB hre him hs hz).mono (mul_le_mul_of_nonneg_right hle (Real.sqrt_nonneg _)),
    (C98_cbrt fine64 hd hwd he hed hB hre him hs hz).mono (mul_le_mul_of_nonneg_right hle (by positivity)),
    (C98_ln hd hwd he hed hre him hs hz).mono (mul_le_mul_of_nonneg_right hle' (by positivity)),
    (C98_polar hd hwd he hed hB hre him hs hz).2.2.mono (mul_le_mul_of_nonneg_right hle'' (by positivity)), ?_⟩
  intro x hx hx1 hx2
  have hpi := Real.pi_lt_d2
  have hab := Complex.abs_arg_le_pi (complexOf z)
  have hxa : |x.val * (complexOf z).arg| ≤ 200 * 4 := by
    rw [abs_mul]; exact mul_le_mul hx2 (by linarith) (abs_nonneg _) (by norm_num)
  have hK : 1 + |x.val| * (1 + |Real.log ‖complexOf z‖|) ≤ 1000 := by
    rw [mul_add, mul_one, ← abs_mul]; linarith
  refine (C98_powf fine64 hd hwd he hed hre him hs hz hx le_rfl (by linarith) ?_ (by linarith) (by linarith) ?_).mono ?_
  · have := mul_le_mul_of_nonneg_left hK (show (0 : ℝ) ≤ 2 ^ (-50 : ℤ) by positivity)
    norm_num at this ⊢
    linarith
  · rw [Real.rpow_def_of_pos hq0, mul_comm]
    exact fits_exp (by linarith)
  · refine mul_le_mul_of_nonneg_right (mul_le_mul_of_nonneg_right (by norm_num) (by positivity)) (by positivity)

/-- **The functions that are defined everywhere**, in `f64`. -/
theorem C98_entire_f64 [Lib f64] {e : ℝ} (he : ComplexLibrary f64 e 1000 600) (hed : e ≤ 2 ^ (-50 : ℤ)) {z : Cx (Ieee f64)}
    (hre : z.re.Finite) (him : z.im.Finite) (h1 : |z.re.val| ≤ 600) (h2 : |z.im.val| ≤ 600) :
    CxWithin z.exp (Complex.exp (complexOf z)) (2 ^ (-47 : ℤ) * Real.exp z.re.val) ∧
    CxWithin z.cosh (Complex.cosh (complexOf z)) (2 ^ (-47 : ℤ) * Real.cosh z.re.val) ∧
    CxWithin z.sinh (Complex.sinh (complexOf z)) (2 ^ (-47 : ℤ) * Real.cosh z.re.val) ∧
    CxWithin z.cos (Complex.cos (complexOf z)) (2 ^ (-47 : ℤ) * Real.cosh z.im.val) ∧
    CxWithin z.sin (Complex.sin (complexOf z)) (2 ^ (-47 : ℤ) * Real.cosh z.im.val) := by
  have hwd : unit f64 ≤ 2 ^ (-50 : ℤ) := by
    refine unit64.trans ?_
    have h : (2 : ℝ) ^ (-1075 : ℤ) ≤ 2 ^ (-63 : ℤ) := zpow_le_zpow_right₀ one_le_two (by norm_num)
    norm_num at h ⊢
    linarith
  have hd : (2 : ℝ) ^ (-50 : ℤ) ≤ 1 / 1000000 := by norm_num
  have hle : (5 : ℝ) * 2 ^ (-50 : ℤ) ≤ 2 ^ (-47 : ℤ) := by norm_num
  have hc := fun x => mul_le_mul_of_nonneg_right hle (Real.cosh_pos x).le
  refine ⟨?_, (C98_cosh hd hwd he hed hre him h1 (by linarith) (fits_cosh h1)).mono (hc _),
    (C98_sinh hd hwd he hed hre him h1 (by linarith) (fits_cosh h1)).mono (hc _),
    (C98_cos hd hwd he hed hre him h2 (by linarith) (fits_cosh h2)).mono (hc _),
    (C98_sin hd hwd he hed hre him h2 (by linarith) (fits_cosh h2)).mono (hc _)⟩
  have hw : CxWithin z (complexOf z) 0 := ⟨⟨hre, by rw [complexOf, sub_self, abs_zero]⟩, him, by rw [complexOf, sub_self, abs_zero]⟩
  have := C98_exp hd hwd he hed hw (by norm_num) (by rw [add_zero]; exact h1) (by rw [add_zero]; exact h2.trans (by norm_num))
    (fits_exp h1)
  rw [Complex.norm_exp, mul_zero, add_zero] at this
  exact this.mono (mul_le_mul_of_nonneg_right hle (Real.exp_pos _).le)

/-- **Products and quotients in `f64`**, for numbers whose moduli are between `2^-400` and `2^400`. -/
theorem C98_arithmetic_f64 {z w : Cx (Ieee f64)} (hre : z.re.Finite) (him : z.im.Finite) (hre' : w.re.Finite) (him' : w.im.Finite)
    (h1 : (2 : ℝ) ^ (-400 : ℤ) ≤ ‖complexOf z‖) (h2 : ‖complexOf z‖ ≤ 2 ^ (400 : ℤ))
    (h3 : (2 : ℝ) ^ (-400 : ℤ) ≤ ‖complexOf w‖) (h4 : ‖complexOf w‖ ≤ 2 ^ (400 : ℤ)) :
    CxWithin (z * w) (complexOf z * complexOf w) (2 ^ (-50 : ℤ) * (‖complexOf z‖ * ‖complexOf w‖)) ∧
    CxWithin (z / w) (complexOf z / complexOf w) (2 ^ (-48 : ℤ) * (‖complexOf z‖ / ‖complexOf w‖)) := by
  have hu : f64.u ≤ 1 / 1000000 := by change (2 : ℝ) ^ (-53 : ℤ) ≤ _; norm_num
  have hz0 : 0 < ‖complexOf z‖ := lt_of_lt_of_le (by positivity) h1
  have hw0 : 0 < ‖complexOf w‖ := lt_of_lt_of_le (by positivity) h3
  have hp : ∀ {a b : ℝ}, (2 : ℝ) ^ (-400 : ℤ) ≤ a → a ≤ 2 ^ (400 : ℤ) → (2 : ℝ) ^ (-400 : ℤ) ≤ b → b ≤ 2 ^ (400 : ℤ) → Fits f64 (a * b) := by
    intro a b a1 a2 b1 b2
    have a0 : 0 ≤ a := le_trans (by positivity) a1
    have b0 : 0 ≤ b := le_trans (by positivity) b1
    refine fits64 ?_ ?_
    · calc (2 : ℝ) ^ (-1020 : ℤ) ≤ 2 ^ (-400 + -400 : ℤ) := zpow_le_zpow_right₀ one_le_two (by norm_num)
        _ = 2 ^ (-400 : ℤ) * 2 ^ (-400 : ℤ) := zpow_add₀ two_ne_zero _ _
        _ ≤ _ := mul_le_mul a1 b1 (by positivity) a0
    · calc a * b ≤ 2 ^ (400 : ℤ) * 2 ^ (400 : ℤ) := mul_le_mul a2 b2 b0 (by positivity)
        _ = 2 ^ (400 + 400 : ℤ) := (zpow_add₀ two_ne_zero _ _).symm
        _ ≤ _ := zpow_le_zpow_right₀ one_le_two (by norm_num)
  have hi1 : (2 : ℝ) ^ (-400 : ℤ) ≤ ‖complexOf w‖⁻¹ := by rw [zpow_neg]; exact inv_anti₀ hw0 h4
  have hi2 : ‖complexOf w‖⁻¹ ≤ 2 ^ (400 : ℤ) := by
    rw [← inv_inv ((2 : ℝ) ^ (400 : ℤ)), ← zpow_neg]; exact inv_anti₀ (by positivity) h3
  refine ⟨(C98_mul hu hre him hre' him' (hp h1 h2 h3 h4)).mono (mul_le_mul_of_nonneg_right ?_ (by positivity)),
    (C98_div hu hre him hre' him' (hp h1 h2 h3 h4) (hp h3 h4 h3 h4) (by rw [div_eq_mul_inv]; exact hp h1 h2 hi1 hi2)).mono
      (mul_le_mul_of_nonneg_right ?_ (by positivity))⟩
  · change 7 * (2 : ℝ) ^ (-53 : ℤ) ≤ _; norm_num
  · change 17 * (2 : ℝ) ^ (-53 : ℤ) ≤ _; norm_num

/-! ### the hypotheses are met -/

theorem round_upto {s : Bool} {x c : ℝ} (h : |x| ≤ c) (h1 : (2 : ℝ) ^ (-1020 : ℤ) ≤ c) (h2 : c ≤ 2 ^ (1000 : ℤ)) :
    (Ieee.round s x : Ieee f64).Finite ∧ |(Ieee.round s x : Ieee f64).val - x| ≤ 2 ^ (-50 : ℤ) * c := by
  have hf : (Ieee.round s x : Ieee f64).Finite := by
    refine finite_round ((f64.mono _ _ (h.trans h2)).trans ?_)
    rw [fl64_two_zpow (by norm_num)]
    exact two_zpow_le_big (by norm_num)
  refine ⟨hf, ?_⟩
  rw [val_round hf]
  have hF := fits64 h1 h2
  have hu : f64.u ≤ 1 / 1000000 := by change (2 : ℝ) ^ (-53 : ℤ) ≤ _; norm_num
  refine (hF.round hu (by have := hF.pos; linarith)).2.trans (mul_le_mul_of_nonneg_right ?_ hF.pos.le)
  change 203 / 100 * (2 : ℝ) ^ (-53 : ℤ) ≤ _
  norm_num

theorem big64_le : f64.big ≤ 2 ^ (1026 : ℤ) := by
  change (2 ^ 53 - 1) * (2 : ℝ) ^ 971 ≤ _
  have h2 : (2 : ℝ) ^ (1026 : ℤ) = 2 ^ 55 * 2 ^ 971 := by
    rw [show (1026 : ℤ) = ((55 + 971 : ℕ) : ℤ) by norm_num, zpow_natCast, pow_add]
  rw [h2]
  exact mul_le_mul_of_nonneg_right (by norm_num) (by positivity)

theorem normal_bounds {s : Bool} {m : ℝ} {h} (h1 : 0 < (fin s m h : Ieee f64).val) (h2 : f64.tiny ≤ 2 * f64.u * (fin s m h : Ieee f64).val) :
    s = false ∧ 0 < m ∧ (2 : ℝ) ^ (-1023 : ℤ) ≤ m ∧ m ≤ 2 ^ (1026 : ℤ) := by
  have hs : s = false := by
    cases s
    · rfl
    · have h3 : (0 : ℝ) < -m := h1
      have := h.1
      linarith
  subst hs
  have h3 : (0 : ℝ) < m := h1
  have h4 : (2 : ℝ) ^ (-1075 : ℤ) ≤ 2 * 2 ^ (-53 : ℤ) * m := h2
  refine ⟨rfl, h3, ?_, h.2.1.trans big64_le⟩
  have e : (2 : ℝ) ^ (-1075 : ℤ) = 2 * 2 ^ (-53 : ℤ) * 2 ^ (-1023 : ℤ) := by
    rw [show (-1075 : ℤ) = 1 + -53 + -1023 by norm_num, zpow_add₀ two_ne_zero, zpow_add₀ two_ne_zero, zpow_one]
  rw [e] at h4
  exact le_of_mul_le_mul_left h4 (by positivity)

theorem root_two_zpow {k j : ℤ} (h : j = k * 3) : ((2 : ℝ) ^ j) ^ (1 / 3 : ℝ) = 2 ^ k := by
  rw [h, zpow_mul]
  have := Real.pow_rpow_inv_natCast (x := (2 : ℝ) ^ k) (n := 3) (by positivity) (by norm_num)
  rw [one_div]
  exact_mod_cast this

section
attribute [local instance] Library64.correctlyRounded

/-- a library with these accuracies exists -/
theorem complexLibrary_correctlyRounded : ComplexLibrary f64 (2 ^ (-50 : ℤ)) 1000 600 where
  sincos := sinCosWithin_correctlyRounded 1000
  arg := by
    rintro _ _ ⟨s, m, h, rfl⟩ ⟨t, k, h', rfl⟩ hne
    change (if m = 0 then flip s (if t then (crPos Real.pi) else 0) else Ieee.round s (Complex.arg ⟨signed t k, signed s m⟩) : Ieee f64).Finite ∧
      |(if m = 0 then flip s (if t then (crPos Real.pi) else 0) else Ieee.round s (Complex.arg ⟨signed t k, signed s m⟩) : Ieee f64).val -
        Complex.arg ⟨signed t k, signed s m⟩| ≤ _
    split_ifs with hm ht
    · exfalso
      subst hm
      rcases hne with h1 | h1
      · have : signed t k = -k := by simp [signed, ht]
        have h2 : 0 < signed t k := h1
        have := h'.1
        linarith
      · exact h1 (by cases s <;> simp [Ieee.val, signed])
    · subst hm
      have ha : Complex.arg ⟨signed t k, signed s 0⟩ = 0 := by
        rw [Complex.arg_eq_zero_iff]
        constructor
        · simp [signed, ht, h'.1]
        · cases s <;> simp [signed]
      have hz : (flip s (0 : Ieee f64)).val = 0 := by cases s <;> simp [Ieee.flip, val_neg, val_zero]
      rw [ha, hz]
      refine ⟨?_, by simp⟩
      cases s
      · exact finite_zero
      · exact (Nr.exact finite_zero).neg.1
    · exact round_near ((Complex.abs_arg_le_pi _).trans Real.pi_le_four)
  exp := by
    rintro _ ⟨s, m, h, rfl⟩ h1
    have h2 := abs_le.mp (show |signed s m| ≤ 600 from h1)
    exact round_upto (by rw [abs_of_pos (Real.exp_pos _)]; rfl) ((zpow_le_zpow_right₀ one_le_two (by norm_num)).trans (exp_small h2.1))
      ((exp_large h2.2).trans (zpow_le_zpow_right₀ one_le_two (by norm_num)))
  cosh := by
    rintro _ ⟨s, m, h, rfl⟩ h1
    exact round_upto (by rw [abs_of_pos (Real.cosh_pos _)]; rfl)
      (le_trans (zpow_le_one_of_nonpos₀ one_le_two (by norm_num)) (Real.one_le_cosh _))
      ((cosh_large h1).trans (zpow_le_zpow_right₀ one_le_two (by norm_num)))
  sinh := by
    rintro _ ⟨s, m, h, rfl⟩ h1
    change (if m = 0 then fin s m h else Ieee.round s (Real.sinh (signed s m)) : Ieee f64).Finite ∧
      |(if m = 0 then fin s m h else Ieee.round s (Real.sinh (signed s m)) : Ieee f64).val - Real.sinh (signed s m)| ≤ _ * Real.cosh (signed s m)
    split_ifs with hm
    · refine ⟨finite_fin _ _ _, ?_⟩
      subst hm
      have : signed s 0 = 0 := by cases s <;> simp [signed]
      simp [Ieee.val, this]
    · exact round_upto (abs_sinh_le _)
        (le_trans (zpow_le_one_of_nonpos₀ one_le_two (by norm_num)) (Real.one_le_cosh _))
        ((cosh_large h1).trans (zpow_le_zpow_right₀ one_le_two (by norm_num)))
  ln := by
    rintro _ ⟨s, m, h, rfl⟩ h1 h2
    obtain ⟨rfl, hm, hlo, hhi⟩ := normal_bounds h1 h2
    change (if m = 0 then inf true else Ieee.round false (Real.log m) : Ieee f64).Finite ∧
      |(if m = 0 then inf true else Ieee.round false (Real.log m) : Ieee f64).val - Real.log m| ≤ _ * (1 + |Real.log m|)
    rw [if_neg hm.ne']
    have h3 := Real.log_le_log (by positivity) hlo
    have h4 := Real.log_le_log hm hhi
    rw [Real.log_zpow] at h3 h4
    have h5 := Real.log_two_lt_d9
    have h6 := Real.log_two_gt_d9
    push_cast at h3 h4
    have h7 : |Real.log m| ≤ 1100 := by rw [abs_le]; constructor <;> linarith
    have h8 := abs_nonneg (Real.log m)
    refine round_upto (by linarith) (le_trans (zpow_le_one_of_nonpos₀ one_le_two (by norm_num)) (by linarith)) ?_
    refine le_trans ?_ (zpow_le_zpow_right₀ one_le_two (show (11 : ℤ) ≤ 1000 by norm_num))
    norm_num
    linarith
  cbrt := by
    rintro _ ⟨s, m, h, rfl⟩ h1 h2
    obtain ⟨rfl, hm, hlo, hhi⟩ := normal_bounds h1 h2
    have e1 : (fcbrt (fin false m h : Ieee f64)) = Ieee.round false (m ^ (1 / 3 : ℝ)) := by
      change Ieee.round false (if 0 ≤ m then m ^ (1 / 3 : ℝ) else -((-m) ^ (1 / 3 : ℝ))) = _
      rw [if_pos hm.le]
    rw [e1]
    have h3 := Real.rpow_le_rpow (by positivity) hlo (show (0 : ℝ) ≤ 1 / 3 by norm_num)
    have h4 := Real.rpow_le_rpow hm.le hhi (show (0 : ℝ) ≤ 1 / 3 by norm_num)
    rw [root_two_zpow (k := -341) (by norm_num)] at h3
    rw [root_two_zpow (k := 342) (by norm_num)] at h4
    have h0 : 0 < m ^ (1 / 3 : ℝ) := by positivity
    exact round_upto (by rw [abs_of_pos h0]; rfl) ((zpow_le_zpow_right₀ one_le_two (by norm_num)).trans h3)
      (h4.trans (zpow_le_zpow_right₀ one_le_two (by norm_num)))

end

/-- the hypotheses are met by a library and by numbers of very different sizes -/
example : (∃ _ : Lib f64, ComplexLibrary f64 (2 ^ (-50 : ℤ)) 1000 600 ∧ ArgWithin f64 (2 ^ (-50 : ℤ))) ∧
    ∃ z w : Cx (Ieee f64), (z.re.Finite ∧ z.im.Finite ∧ complexOf z = ⟨0, 1⟩ ∧ complexOf z ∈ Complex.slitPlane ∧ ‖complexOf z‖ = 1) ∧
      (w.re.Finite ∧ w.im.Finite ∧ complexOf w = ⟨2 ^ (100 : ℤ), 0⟩ ∧ complexOf w ∈ Complex.slitPlane ∧ ‖complexOf w‖ = 2 ^ (100 : ℤ)) := by
  have ht : Is (num (2 ^ (100 : ℤ))) (2 ^ (100 : ℤ)) := is_num' (fl64_two_zpow (by norm_num)) (by norm_num)
  refine ⟨⟨(Library64.correctlyRounded).toLib, complexLibrary_correctlyRounded, argWithin_correctlyRounded⟩,
    ⟨0, 1⟩, ⟨num (2 ^ (100 : ℤ)), 0⟩, ⟨finite_zero, finite_one, ?_⟩, ⟨ht.1, finite_zero, ?_⟩⟩
  · have e1 : complexOf (⟨0, 1⟩ : Cx (Ieee f64)) = Complex.I := Complex.ext (val_zero (φ := f64)) (val_one (φ := f64))
    rw [e1]
    exact ⟨rfl, by simp [Complex.mem_slitPlane_iff], by simp⟩
  · have e1 : complexOf (⟨num (2 ^ (100 : ℤ)), 0⟩ : Cx (Ieee f64)) = ((2 ^ (100 : ℤ) : ℝ) : ℂ) := Complex.ext ht.2 (val_zero (φ := f64))
    rw [e1]
    refine ⟨rfl, ?_, ?_⟩
    · rw [Complex.ofReal_mem_slitPlane]; positivity
    · rw [Complex.norm_real, Real.norm_of_nonneg (by positivity)]

end Cgl

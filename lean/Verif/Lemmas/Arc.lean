import Mathlib.Geometry.Euclidean.Angle.Unoriented.Basic
import Mathlib.Analysis.SpecialFunctions.Trigonometric.Bounds
import Mathlib.Analysis.SpecialFunctions.Trigonometric.Deriv
import Mathlib.Analysis.Calculus.Deriv.MeanValue
import Mathlib.Analysis.Real.Pi.Bounds
import Mathlib.Analysis.SpecialFunctions.Trigonometric.Sinc

/-! # Points on the arc between two unit vectors -/

namespace Cgl
open InnerProductGeometry

variable {E : Type*} [NormedAddCommGroup E] [InnerProductSpace ℝ E]

/-- `k` is the unit vector that divides the angle between `g` and `h` in the ratio of `t` to `1 - t` -/
def Spec.OnArc (g h k : E) (t : ℝ) : Prop :=
  ‖k‖ = 1 ∧ angle g k = t * angle g h ∧ angle k h = (1 - t) * angle g h

theorem inner_of_unit {g h : E} (hg : ‖g‖ = 1) (hh : ‖h‖ = 1) : inner ℝ g h = Real.cos (angle g h) := by
  rw [cos_angle, hg, hh]; norm_num

theorem angle_of_unit {g h : E} (hg : ‖g‖ = 1) (hh : ‖h‖ = 1) : angle g h = Real.arccos (inner ℝ g h) := by
  rw [angle, hg, hh]; norm_num

private theorem sub_angle (t θ : ℝ) : Real.sin ((1 - t) * θ) = Real.sin θ * Real.cos (t * θ) - Real.cos θ * Real.sin (t * θ) ∧
    Real.cos ((1 - t) * θ) = Real.cos θ * Real.cos (t * θ) + Real.sin θ * Real.sin (t * θ) := by
  rw [show (1 - t) * θ = θ - t * θ by ring, Real.sin_sub, Real.cos_sub]; exact ⟨rfl, rfl⟩

theorem norm_sq_combination {g h : E} (hg : ‖g‖ = 1) (hh : ‖h‖ = 1) (a b : ℝ) :
    ‖a • g + b • h‖ ^ 2 = a ^ 2 + 2 * a * b * inner ℝ g h + b ^ 2 := by
  rw [norm_add_sq_real, norm_smul, norm_smul, hg, hh, real_inner_smul_left, real_inner_smul_right]
  simp only [Real.norm_eq_abs, mul_one, sq_abs]
  ring

/-- the unit vector is determined by the two angles -/
theorem Spec.OnArc.eq {g h k : E} {t : ℝ} (hg : ‖g‖ = 1) (hh : ‖h‖ = 1) (hk : Spec.OnArc g h k t)
    (h0 : Real.sin (angle g h) ≠ 0) :
    k = (Real.sin ((1 - t) * angle g h) / Real.sin (angle g h)) • g +
      (Real.sin (t * angle g h) / Real.sin (angle g h)) • h := by
  obtain ⟨h1, h2, h3⟩ := hk
  have i1 := inner_of_unit hg h1
  have i2 := inner_of_unit h1 hh
  have i3 := inner_of_unit hg hh
  rw [h2] at i1
  rw [h3] at i2
  obtain ⟨e1, e2⟩ := sub_angle t (angle g h)
  have hc := Real.sin_sq_add_cos_sq (angle g h)
  have hc' := Real.sin_sq_add_cos_sq (t * angle g h)
  have hn := norm_sq_combination hg hh (Real.sin ((1 - t) * angle g h) / Real.sin (angle g h))
    (Real.sin (t * angle g h) / Real.sin (angle g h))
  rw [i3] at hn
  rw [← sub_eq_zero, ← norm_eq_zero, ← sq_eq_zero_iff, norm_sub_sq_real, hn, h1, inner_add_right, real_inner_smul_right,
    real_inner_smul_right, real_inner_comm, i1, i2, e1, e2]
  generalize Real.sin (angle g h) = S at *
  generalize Real.cos (angle g h) = C at *
  generalize Real.sin (t * angle g h) = y at *
  generalize Real.cos (t * angle g h) = x at *
  field_simp
  linear_combination (-y ^ 2) * hc - S ^ 2 * hc'

/-- there is such a vector -/
theorem Spec.OnArc.of_eq {g h : E} {t : ℝ} (hg : ‖g‖ = 1) (hh : ‖h‖ = 1) (h0 : Real.sin (angle g h) ≠ 0) (ht : 0 ≤ t ∧ t ≤ 1) :
    Spec.OnArc g h ((Real.sin ((1 - t) * angle g h) / Real.sin (angle g h)) • g +
      (Real.sin (t * angle g h) / Real.sin (angle g h)) • h) t := by
  obtain ⟨e1, e2⟩ := sub_angle t (angle g h)
  have i3 := inner_of_unit hg hh
  have hc := Real.sin_sq_add_cos_sq (angle g h)
  have hc' := Real.sin_sq_add_cos_sq (t * angle g h)
  have hn := norm_sq_combination hg hh (Real.sin ((1 - t) * angle g h) / Real.sin (angle g h))
    (Real.sin (t * angle g h) / Real.sin (angle g h))
  have a0 := angle_nonneg g h
  have a1 := angle_le_pi g h
  rw [i3] at hn
  obtain ⟨k, hk⟩ : ∃ k, k = (Real.sin ((1 - t) * angle g h) / Real.sin (angle g h)) • g +
      (Real.sin (t * angle g h) / Real.sin (angle g h)) • h := ⟨_, rfl⟩
  have i1 : inner ℝ g k = Real.cos (t * angle g h) := by
    rw [hk, inner_add_right, real_inner_smul_right, real_inner_smul_right, real_inner_self_eq_norm_sq, hg, i3, e1]
    field_simp
    ring
  have i2 : inner ℝ k h = Real.cos ((1 - t) * angle g h) := by
    rw [hk, inner_add_left, real_inner_smul_left, real_inner_smul_left, real_inner_self_eq_norm_sq, hh, i3, e1, e2]
    field_simp
    linear_combination (-Real.sin (t * angle g h)) * hc
  have hk1 : ‖k‖ = 1 := by
    have : ‖k‖ ^ 2 = 1 := by
      rw [hk, hn, e1]
      field_simp
      linear_combination (-Real.sin (t * angle g h) ^ 2) * hc + Real.sin (angle g h) ^ 2 * hc'
    nlinarith [norm_nonneg k]
  rw [← hk]
  refine ⟨hk1, ?_, ?_⟩
  · rw [angle_of_unit hg hk1, i1, Real.arccos_cos (mul_nonneg ht.1 a0) ((mul_le_of_le_one_left a0 ht.2).trans a1)]
  · rw [angle_of_unit hk1 hh, i2, Real.arccos_cos (mul_nonneg (by linarith [ht.2]) a0)
      ((mul_le_of_le_one_left a0 (by linarith [ht.1])).trans a1)]

/-- a point of the arc is no further from the start than the end is -/
theorem Spec.OnArc.near {g h k : E} {t : ℝ} (hg : ‖g‖ = 1) (hh : ‖h‖ = 1) (hk : Spec.OnArc g h k t) (ht : 0 ≤ t ∧ t ≤ 1) :
    ‖k - g‖ ^ 2 ≤ 2 - 2 * inner ℝ g h := by
  have i1 := inner_of_unit hg hk.1
  have i3 := inner_of_unit hg hh
  have a0 := angle_nonneg g h
  rw [hk.2.1] at i1
  rw [norm_sub_sq_real, hk.1, hg, real_inner_comm, i1, i3]
  have := Real.cos_le_cos_of_nonneg_of_le_pi (mul_nonneg ht.1 a0) (angle_le_pi g h) (mul_le_of_le_one_left a0 ht.2)
  linarith

private theorem sine_lag {t θ : ℝ} (ht : 0 ≤ t ∧ t ≤ 1) (hθ : 0 ≤ θ) :
    |t * Real.sin ((1 - t) * θ) - (1 - t) * Real.sin (t * θ)| ≤ θ ^ 3 / 24 := by
  obtain ⟨h0, h1⟩ := ht
  have a1 := Real.sin_le (mul_nonneg (sub_nonneg.mpr h1) hθ)
  have a2 := Real.sin_le (mul_nonneg h0 hθ)
  have b1 := Real.sin_ge_sub_cube (mul_nonneg (sub_nonneg.mpr h1) hθ)
  have b2 := Real.sin_ge_sub_cube (mul_nonneg h0 hθ)
  have hq : t * (1 - t) ≤ 1 / 4 := by nlinarith [sq_nonneg (1 - 2 * t)]
  have hq0 : 0 ≤ t * (1 - t) := mul_nonneg h0 (by linarith)
  have h3 : 0 ≤ θ ^ 3 := pow_nonneg hθ 3
  have k1 : t * (1 - t) * t ^ 2 * θ ^ 3 ≤ 1 / 4 * 1 * θ ^ 3 :=
    mul_le_mul_of_nonneg_right (mul_le_mul hq (pow_le_one₀ h0 h1) (sq_nonneg _) (by norm_num)) h3
  have k2 : t * (1 - t) * (1 - t) ^ 2 * θ ^ 3 ≤ 1 / 4 * 1 * θ ^ 3 :=
    mul_le_mul_of_nonneg_right (mul_le_mul hq (pow_le_one₀ (by linarith) (by linarith)) (sq_nonneg _) (by norm_num)) h3
  rw [abs_le]
  constructor
  · nlinarith [mul_le_mul_of_nonneg_left b1 h0, mul_le_mul_of_nonneg_left a2 (sub_nonneg.mpr h1)]
  · nlinarith [mul_le_mul_of_nonneg_left a1 h0, mul_le_mul_of_nonneg_left b2 (sub_nonneg.mpr h1)]

private theorem chord_step {N X Y : ℝ} (hN : 0 < N) (hX : 0 ≤ X) (h : 1 / 2 ≤ N ^ 2) (hXY : N ^ 2 = X ^ 2 + Y ^ 2) :
    2 * (N - X) ≤ 4 * Y ^ 2 * N := by
  have e : Y ^ 2 = (N - X) * (N + X) := by linear_combination -hXY
  have h1 : 0 ≤ N - X := by
    by_contra hc
    have := sq_nonneg Y
    rw [e] at this
    nlinarith
  have h2 : 1 ≤ 2 * ((N + X) * N) := by nlinarith
  rw [e]
  nlinarith [mul_le_mul_of_nonneg_left h2 h1]

/-- the normalized chord is close to the arc -/
theorem Spec.OnArc.chord {g h k : E} {t : ℝ} (hg : ‖g‖ = 1) (hh : ‖h‖ = 1) (hk : Spec.OnArc g h k t) (ht : 0 ≤ t ∧ t ≤ 1)
    (h0 : 0 ≤ inner ℝ g h) : 1 / 2 ≤ ‖(1 - t) • g + t • h‖ ^ 2 ∧
      ‖‖(1 - t) • g + t • h‖⁻¹ • ((1 - t) • g + t • h) - k‖ ≤ angle g h ^ 3 / 12 := by
  have i1 := inner_of_unit hg hk.1
  have i2 := inner_of_unit hk.1 hh
  have i3 := inner_of_unit hg hh
  have a0 := angle_nonneg g h
  rw [hk.2.1] at i1
  rw [hk.2.2] at i2
  have hn := norm_sq_combination hg hh (1 - t) t
  have hl := sine_lag ht a0
  have ha : Real.cos (angle g h) = Real.cos (t * angle g h) * Real.cos ((1 - t) * angle g h) -
      Real.sin (t * angle g h) * Real.sin ((1 - t) * angle g h) := by
    rw [← Real.cos_add]; congr 1; ring
  have hp : angle g h ≤ Real.pi / 2 := by
    rw [angle_of_unit hg hh]; exact Real.arccos_le_pi_div_two.mpr h0
  have c1 : 0 ≤ Real.cos (t * angle g h) := Real.cos_nonneg_of_mem_Icc
    ⟨by linarith [Real.pi_pos, mul_nonneg ht.1 a0], (mul_le_of_le_one_left a0 ht.2).trans hp⟩
  have c2 : 0 ≤ Real.cos ((1 - t) * angle g h) := Real.cos_nonneg_of_mem_Icc
    ⟨by linarith [Real.pi_pos, mul_nonneg (sub_nonneg.mpr ht.2) a0],
      (mul_le_of_le_one_left a0 (by linarith [ht.1])).trans hp⟩
  have s1 := Real.sin_sq_add_cos_sq (t * angle g h)
  have s2 := Real.sin_sq_add_cos_sq ((1 - t) * angle g h)
  have hN2 : 1 / 2 ≤ ‖(1 - t) • g + t • h‖ ^ 2 := by
    rw [hn]
    nlinarith [sq_nonneg (1 - 2 * t), mul_nonneg (mul_nonneg ht.1 (sub_nonneg.mpr ht.2)) h0]
  refine ⟨hN2, ?_⟩
  have ik : inner ℝ ((1 - t) • g + t • h) k = (1 - t) * Real.cos (t * angle g h) + t * Real.cos ((1 - t) * angle g h) := by
    rw [inner_add_left, real_inner_smul_left, real_inner_smul_left, i1, real_inner_comm, i2]
  have hN0 := norm_nonneg ((1 - t) • g + t • h)
  generalize hv : (1 - t) • g + t • h = v at *
  have hNp : 0 < ‖v‖ := by nlinarith
  set X := (1 - t) * Real.cos (t * angle g h) + t * Real.cos ((1 - t) * angle g h) with hX
  set Y := t * Real.sin ((1 - t) * angle g h) - (1 - t) * Real.sin (t * angle g h) with hY
  have hX0 : 0 ≤ X := add_nonneg (mul_nonneg (sub_nonneg.mpr ht.2) c1) (mul_nonneg ht.1 c2)
  have hXY : ‖v‖ ^ 2 = X ^ 2 + Y ^ 2 := by
    rw [hn, i3, ha, hX, hY]; linear_combination (-(1 - t) ^ 2) * s1 - t ^ 2 * s2
  have hd : ‖‖v‖⁻¹ • v - k‖ ^ 2 = 2 - 2 * (X / ‖v‖) := by
    rw [norm_sub_sq_real, norm_smul, norm_inv, norm_norm, inv_mul_cancel₀ hNp.ne', hk.1, real_inner_smul_left, ik]
    ring
  have h3 : 0 ≤ angle g h ^ 3 := pow_nonneg a0 3
  refine abs_le_of_sq_le_sq' ?_ (by positivity) |>.2
  have hle : 2 - 2 * (X / ‖v‖) ≤ 4 * Y ^ 2 := by
    rw [show 2 - 2 * (X / ‖v‖) = 2 * (‖v‖ - X) / ‖v‖ by field_simp, div_le_iff₀ hNp]
    exact chord_step hNp hX0 hN2 hXY
  rw [hd]
  refine hle.trans ?_
  have : Y ^ 2 ≤ (angle g h ^ 3 / 24) ^ 2 := by
    rw [← sq_abs]; exact pow_le_pow_left₀ (abs_nonneg _) hl 2
  nlinarith

/-! ### the weights change slowly with the cosine -/

theorem sine_ge {θ : ℝ} (h1 : 0 ≤ θ) (h2 : θ ≤ 8 / 5) : 13 / 25 * θ ≤ Real.sin θ := by
  have p1 := Real.pi_gt_d2
  have p2 := Real.pi_lt_d2
  rcases le_or_gt θ (Real.pi / 2) with h | h
  · have := Real.mul_le_sin h1 h
    have h3 : 13 / 25 ≤ 2 / Real.pi := by rw [le_div_iff₀ Real.pi_pos]; linarith
    nlinarith
  · have e : Real.sin θ = Real.cos (θ - Real.pi / 2) := by rw [Real.cos_sub_pi_div_two]
    have := Real.one_sub_sq_div_two_le_cos (x := θ - Real.pi / 2)
    rw [e]
    nlinarith

private theorem hasDeriv_g (t θ : ℝ) : HasDerivAt (fun θ => t * Real.cos (t * θ) * Real.sin θ - Real.sin (t * θ) * Real.cos θ)
    ((1 - t ^ 2) * (Real.sin (t * θ) * Real.sin θ)) θ := by
  have h1 : HasDerivAt (fun θ => t * θ) t θ := by simpa using (hasDerivAt_id θ).const_mul t
  have h2 := ((h1.cos.const_mul t).mul (Real.hasDerivAt_sin θ)).sub (h1.sin.mul (Real.hasDerivAt_cos θ))
  refine h2.congr_deriv ?_
  simp
  ring

/-- the numerator of the derivative of a weight -/
private theorem numerator {t θ : ℝ} (ht : 0 ≤ t ∧ t ≤ 1) (h1 : 0 ≤ θ) (h2 : θ ≤ 8 / 5) :
    0 ≤ t * Real.cos (t * θ) * Real.sin θ - Real.sin (t * θ) * Real.cos θ ∧
    t * Real.cos (t * θ) * Real.sin θ - Real.sin (t * θ) * Real.cos θ ≤ 2 / 15 * θ ^ 3 := by
  have p1 := Real.pi_gt_d2
  have ht2 : 0 ≤ 1 - t ^ 2 := by nlinarith [ht.1, ht.2]
  have m1 : MonotoneOn (fun θ => t * Real.cos (t * θ) * Real.sin θ - Real.sin (t * θ) * Real.cos θ) (Set.Icc 0 (8 / 5)) := by
    refine monotoneOn_of_deriv_nonneg (convex_Icc _ _) (fun x _ => (hasDeriv_g t x).continuousAt.continuousWithinAt)
      (fun x _ => (hasDeriv_g t x).differentiableAt.differentiableWithinAt) fun x hx => ?_
    rw [interior_Icc] at hx
    rw [(hasDeriv_g t x).deriv]
    have a : 0 ≤ Real.sin (t * x) := Real.sin_nonneg_of_nonneg_of_le_pi (mul_nonneg ht.1 hx.1.le)
      ((mul_le_of_le_one_left hx.1.le ht.2).trans (by linarith [hx.2]))
    have b : 0 ≤ Real.sin x := Real.sin_nonneg_of_nonneg_of_le_pi hx.1.le (by linarith [hx.2])
    exact mul_nonneg ht2 (mul_nonneg a b)
  have hd : ∀ x, HasDerivAt (fun θ => 2 / 15 * θ ^ 3 - (t * Real.cos (t * θ) * Real.sin θ - Real.sin (t * θ) * Real.cos θ))
      (2 / 5 * x ^ 2 - (1 - t ^ 2) * (Real.sin (t * x) * Real.sin x)) x := fun x => by
    refine (((hasDerivAt_pow 3 x).const_mul (2 / 15)).sub (hasDeriv_g t x)).congr_deriv ?_
    push_cast; ring
  have m2 : MonotoneOn (fun θ => 2 / 15 * θ ^ 3 - (t * Real.cos (t * θ) * Real.sin θ - Real.sin (t * θ) * Real.cos θ))
      (Set.Icc 0 (8 / 5)) := by
    refine monotoneOn_of_deriv_nonneg (convex_Icc _ _) (fun x _ => (hd x).continuousAt.continuousWithinAt)
      (fun x _ => (hd x).differentiableAt.differentiableWithinAt) fun x hx => ?_
    rw [interior_Icc] at hx
    rw [(hd x).deriv]
    have a : Real.sin (t * x) ≤ t * x := Real.sin_le (mul_nonneg ht.1 hx.1.le)
    have b : Real.sin x ≤ x := Real.sin_le hx.1.le
    have b0 : 0 ≤ Real.sin x := Real.sin_nonneg_of_nonneg_of_le_pi hx.1.le (by linarith [hx.2])
    have c : Real.sin (t * x) * Real.sin x ≤ t * x * x := mul_le_mul a b b0 (mul_nonneg ht.1 hx.1.le)
    have d : (1 - t ^ 2) * (Real.sin (t * x) * Real.sin x) ≤ (1 - t ^ 2) * (t * x * x) := mul_le_mul_of_nonneg_left c ht2
    have e : (1 - t ^ 2) * t ≤ 2 / 5 := by nlinarith [sq_nonneg (t - 3 / 5), ht.1, mul_nonneg ht.1 (sq_nonneg (t - 3 / 5))]
    nlinarith [mul_le_mul_of_nonneg_right e (sq_nonneg x)]
  constructor
  · have := m1 ⟨le_rfl, by norm_num⟩ ⟨h1, h2⟩ h1
    simpa using this
  · have := m2 ⟨le_rfl, by norm_num⟩ ⟨h1, h2⟩ h1
    simp at this
    linarith

private theorem weight_step {t θ₁ θ₂ : ℝ} (ht : 0 ≤ t ∧ t ≤ 1) (h1 : 0 < θ₁) (h2 : θ₂ ≤ 8 / 5) (h : θ₁ ≤ θ₂) :
    |Real.sin (t * θ₁) / Real.sin θ₁ - Real.sin (t * θ₂) / Real.sin θ₂| ≤ |Real.cos θ₁ - Real.cos θ₂| := by
  have p1 := Real.pi_gt_d2
  have hs : ∀ x ∈ Set.Icc θ₁ θ₂, 0 < Real.sin x := fun x hx =>
    Real.sin_pos_of_pos_of_lt_pi (by linarith [hx.1]) (by linarith [hx.2])
  have hd : ∀ x ∈ Set.Icc θ₁ θ₂, HasDerivAt (fun θ => Real.sin (t * θ) / Real.sin θ)
      ((t * Real.cos (t * x) * Real.sin x - Real.sin (t * x) * Real.cos x) / Real.sin x ^ 2) x := fun x hx => by
    have h1 : HasDerivAt (fun θ => t * θ) t x := by simpa using (hasDerivAt_id x).const_mul t
    refine (h1.sin.div (Real.hasDerivAt_sin x) (hs x hx).ne').congr_deriv ?_
    congr 1; ring
  have m1 : MonotoneOn (fun θ => Real.sin (t * θ) / Real.sin θ) (Set.Icc θ₁ θ₂) := by
    refine monotoneOn_of_deriv_nonneg (convex_Icc _ _) (fun x hx => (hd x hx).continuousAt.continuousWithinAt)
      (fun x hx => ?_) fun x hx => ?_
    · exact (hd x (interior_subset hx)).differentiableAt.differentiableWithinAt
    · have hx' := interior_subset hx
      rw [(hd x hx').deriv]
      exact div_nonneg (numerator ht (by linarith [hx'.1]) (by linarith [hx'.2])).1 (sq_nonneg _)
  have hd2 : ∀ x ∈ Set.Icc θ₁ θ₂, HasDerivAt (fun θ => Real.sin (t * θ) / Real.sin θ + Real.cos θ)
      ((t * Real.cos (t * x) * Real.sin x - Real.sin (t * x) * Real.cos x) / Real.sin x ^ 2 + -Real.sin x) x := fun x hx =>
    (hd x hx).add (Real.hasDerivAt_cos x)
  have m2 : AntitoneOn (fun θ => Real.sin (t * θ) / Real.sin θ + Real.cos θ) (Set.Icc θ₁ θ₂) := by
    refine antitoneOn_of_deriv_nonpos (convex_Icc _ _) (fun x hx => (hd2 x hx).continuousAt.continuousWithinAt)
      (fun x hx => ?_) fun x hx => ?_
    · exact (hd2 x (interior_subset hx)).differentiableAt.differentiableWithinAt
    · have hx' := interior_subset hx
      have hx0 : 0 ≤ x := by linarith [hx'.1]
      rw [(hd2 x hx').deriv]
      have hp := hs x hx'
      have k1 := (numerator ht hx0 (by linarith [hx'.2])).2
      have k2 := sine_ge hx0 (by linarith [hx'.2])
      have k3 : 2 / 15 * x ^ 3 ≤ Real.sin x ^ 3 := by
        have := pow_le_pow_left₀ (by positivity) k2 3
        have h3 : 0 ≤ x ^ 3 := pow_nonneg hx0 3
        nlinarith
      have : (t * Real.cos (t * x) * Real.sin x - Real.sin (t * x) * Real.cos x) / Real.sin x ^ 2 ≤ Real.sin x := by
        rw [div_le_iff₀ (pow_pos hp 2)]
        calc _ ≤ _ := k1
          _ ≤ _ := k3
          _ = _ := by ring
      linarith
  have a := m1 ⟨le_rfl, h⟩ ⟨h, le_rfl⟩ h
  have b := m2 ⟨le_rfl, h⟩ ⟨h, le_rfl⟩ h
  simp only at a b
  rw [abs_sub_comm, abs_of_nonneg (by linarith), abs_of_nonneg (by linarith)]
  linarith

theorem weight_lipschitz {t θ₁ θ₂ : ℝ} (ht : 0 ≤ t ∧ t ≤ 1) (h1 : 0 < θ₁) (h1' : θ₁ ≤ 8 / 5) (h2 : 0 < θ₂) (h2' : θ₂ ≤ 8 / 5) :
    |Real.sin (t * θ₁) / Real.sin θ₁ - Real.sin (t * θ₂) / Real.sin θ₂| ≤ |Real.cos θ₁ - Real.cos θ₂| := by
  rcases le_total θ₁ θ₂ with h | h
  · exact weight_step ht h1 h2' h
  · rw [abs_sub_comm, abs_sub_comm (Real.cos θ₁)]; exact weight_step ht h2 h1' h

/-- the limit of a small angle -/
theorem weight_limit {t θ : ℝ} (ht : 0 ≤ t ∧ t ≤ 1) (h1 : 0 < θ) (h1' : θ ≤ 8 / 5) :
    |Real.sin (t * θ) / Real.sin θ - t| ≤ |Real.cos θ - 1| := by
  have hc : ContinuousAt (fun x : ℝ => |Real.sin (t * θ) / Real.sin θ - t * Real.sinc (t * x) / Real.sinc x| -
      |Real.cos θ - Real.cos x|) 0 := by
    have a : ContinuousAt (fun x : ℝ => t * Real.sinc (t * x) / Real.sinc x) 0 :=
      ContinuousAt.div (by fun_prop) (by fun_prop) (by simp)
    fun_prop
  have hle : ∀ᶠ x in nhdsWithin (0 : ℝ) (Set.Ioi 0), |Real.sin (t * θ) / Real.sin θ - t * Real.sinc (t * x) / Real.sinc x| -
      |Real.cos θ - Real.cos x| ≤ 0 := by
    filter_upwards [Ioo_mem_nhdsGT (show (0 : ℝ) < 1 by norm_num)] with x hx
    have := weight_lipschitz (t := t) ht h1 h1' hx.1 (by linarith [hx.2])
    have hs : 0 < Real.sin x := Real.sin_pos_of_pos_of_lt_pi hx.1 (by linarith [hx.2, Real.pi_gt_three])
    have e : t * Real.sinc (t * x) / Real.sinc x = Real.sin (t * x) / Real.sin x := by
      rw [Real.sinc_of_ne_zero hx.1.ne']
      rcases ht.1.eq_or_lt with h | h
      · rw [← h]; simp
      · rw [Real.sinc_of_ne_zero (mul_pos h hx.1).ne']
        have := hx.1.ne'
        field_simp
    rw [e]
    linarith
  have := le_of_tendsto (hc.tendsto.mono_left nhdsWithin_le_nhds) hle
  simp only [mul_zero, Real.sinc_zero, mul_one, div_one, Real.cos_zero] at this
  linarith

end Cgl

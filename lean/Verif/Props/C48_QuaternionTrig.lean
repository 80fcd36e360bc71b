import Verif.Props.C44_QuaternionExpLn

/-!
# C48 - quaternion trigonometric and hyperbolic functions

`plane u c` is the quaternion `c.re + c.im u`, for a unit vector `u`: every quaternion is of this form, and for a
fixed `u` these quaternions are a copy of the complex numbers. `eps` is the machine epsilon the public functions
pass to `sqrt` and `ln`.
-/

namespace Cgl
open Quat

/-! ### the six functions are the complex ones on each plane -/

theorem C48_every_quaternion (q : Quat ℝ) : ∃ u : Vec ℝ 3, u.normSquared = 1 ∧ ∃ c : ℂ, q = plane u c := by
  obtain ⟨u, hu, c, -, -, h⟩ := exists_plane q
  exact ⟨u, hu, c, h⟩
/-- a plane is a copy of the complex numbers: sums, products, `1`, conjugates and norms agree -/
theorem C48_plane_is_complex (u : Vec ℝ 3) (hu : u.normSquared = 1) (c d : ℂ) :
    plane u (c + d) = plane u c + plane u d ∧ plane u (c * d) = plane u c * plane u d ∧
    plane u 1 = identity ∧ plane u (star c) = (plane u c).conjugate ∧ (plane u c).norm = ‖c‖ ∧
    (plane u c = plane u d → c = d) :=
  ⟨plane_add u c d, plane_mul c d hu, plane_one u, plane_conj u c, plane_norm c hu, plane_injective hu⟩

section
variable {u : Vec ℝ 3} (hu : u.normSquared = 1) (c : ℂ)
include hu

theorem C48_cos : (plane u c).cos = plane u (Complex.cos c) := plane_cos hu c
theorem C48_sin : (plane u c).sin = plane u (Complex.sin c) := plane_sin hu c
theorem C48_cosh : (plane u c).cosh = plane u (Complex.cosh c) := plane_cosh hu c
theorem C48_sinh : (plane u c).sinh = plane u (Complex.sinh c) := plane_sinh hu c
theorem C48_tan (_ : Complex.cos c ≠ 0) : (plane u c).tan = plane u (Complex.tan c) := plane_tan hu c
theorem C48_tanh (h : Complex.cosh c ≠ 0) : (plane u c).tanh = plane u (Complex.tanh c) := plane_tanh hu c h
end

theorem C48_identities (q : Quat ℝ) :
    q.sin * q.sin + q.cos * q.cos = identity ∧ q.cosh * q.cosh - q.sinh * q.sinh = identity ∧
    (q.cos ≠ 0 → q.tan * q.cos = q.sin) ∧ (q.cosh ≠ 0 → q.tanh * q.cosh = q.sinh) := by
  obtain ⟨u, hu, c, -, -, rfl⟩ := exists_plane q
  refine ⟨?_, ?_, ?_, ?_⟩
  · rw [plane_sin hu, plane_cos hu, ← plane_mul _ _ hu, ← plane_mul _ _ hu, ← plane_add, ← plane_one u]
    congr 1
    linear_combination Complex.sin_sq_add_cos_sq c
  · rw [plane_sinh hu, plane_cosh hu, ← plane_mul _ _ hu, ← plane_mul _ _ hu, ← plane_sub, ← plane_one u]
    congr 1
    linear_combination Complex.cosh_sq_sub_sinh_sq c
  · intro h
    have h' : Complex.cos c ≠ 0 := by
      rintro h0; apply h; rw [plane_cos hu, h0, plane_zero]
    rw [plane_tan hu, plane_cos hu, plane_sin hu, ← plane_mul _ _ hu, Complex.tan_mul_cos h']
  · intro h
    have h' : Complex.cosh c ≠ 0 := by
      rintro h0; apply h; rw [plane_cosh hu, h0, plane_zero]
    rw [plane_tanh hu c h', plane_cosh hu, plane_sinh hu, ← plane_mul _ _ hu, Complex.tanh_eq_sinh_div_cosh,
      div_mul_cancel₀ _ h']

/-- On real quaternions they are the real functions. -/
theorem C48_real (x : ℝ) : (fromReal x).cos = fromReal (Real.cos x) ∧ (fromReal x).sin = fromReal (Real.sin x) ∧
    (fromReal x).tan = fromReal (Real.tan x) ∧ (fromReal x).cosh = fromReal (Real.cosh x) ∧
    (fromReal x).sinh = fromReal (Real.sinh x) ∧ (fromReal x).tanh = fromReal (Real.tanh x) := by
  have hu := unitX3_normSquared
  have hc : Complex.cosh (x : ℂ) ≠ 0 := by
    rw [← Complex.ofReal_cosh]; exact_mod_cast (Real.cosh_pos x).ne'
  refine ⟨?_, ?_, ?_, ?_, ?_, ?_⟩ <;> rw [← plane_ofReal Vec.unitX3 x, ← plane_ofReal Vec.unitX3]
  · rw [plane_cos hu, Complex.ofReal_cos]
  · rw [plane_sin hu, Complex.ofReal_sin]
  · rw [plane_tan hu, Complex.ofReal_tan]
  · rw [plane_cosh hu, Complex.ofReal_cosh]
  · rw [plane_sinh hu, Complex.ofReal_sinh]
  · rw [plane_tanh hu _ hc, Complex.ofReal_tanh]

/-- Euler's formulas -/
theorem C48_euler {eps : ℝ} (heps : 0 ≤ eps) (q : Quat ℝ) (h : Spec.Resolved eps q) :
    q.exp eps = q.cosh + q.sinh := by
  obtain ⟨u, hu, c, h1, h2, rfl⟩ := exists_plane q
  have h0 : 0 ≤ c.im := by rw [h2]; exact Vec.norm_nonneg _
  have h' : c.im = 0 ∨ eps < |c.im| := by
    rw [abs_of_nonneg h0, h2]
    rcases h with h | h
    · left; rw [h]; exact (Vec.norm_eq_zero _).mpr rfl
    · right; exact h
  rw [plane_exp hu c heps h', plane_cosh hu, plane_sinh hu, ← plane_add, Complex.cosh_add_sinh]

/-! ### the inverse functions

They call `sqrt` and `ln`, which pick a value outside the plane of their argument when the argument is a negative
real (`sqrt` answers with a multiple of `i`, `ln` drops the `π`). Away from that they are right inverses. -/

/-- arguments on which `sqrt` stays in the plane: zero, or a resolved vector part, or a positive real above the
tolerance -/
def Spec.SqrtPlane (eps : ℝ) (q : Quat ℝ) : Prop :=
  q = 0 ∨ (q.vector = 0 ∧ eps < q.scalar) ∨ eps < q.vector.norm
/-- arguments on which `ln` is the logarithm: a resolved vector part or a non-negative real -/
def Spec.LnPlane (eps : ℝ) (q : Quat ℝ) : Prop := (q.vector = 0 ∧ 0 ≤ q.scalar) ∨ eps < q.vector.norm

section
variable {u : Vec ℝ 3} (hu : u.normSquared = 1) {eps : ℝ} (heps : 0 ≤ eps)
include hu heps

omit heps in
theorem plane_vector_eq_zero {c : ℂ} : (plane u c).vector = 0 ↔ c.im = 0 := by
  rw [← Vec.norm_eq_zero, plane_vector_norm c hu, abs_eq_zero]

theorem sqrtPlane {c : ℂ} (h : Spec.SqrtPlane eps (plane u c)) :
    ∃ d : ℂ, (plane u c).sqrt eps = plane u d ∧ d * d = c ∧ 0 ≤ d.re := by
  rcases h with h | h
  · have hc : c = 0 := by rw [← plane_zero u] at h; exact plane_injective hu h
    refine ⟨0, ?_, by rw [hc, mul_zero], le_rfl⟩
    rw [hc, plane_zero]
    unfold Quat.sqrt
    dsimp only
    rw [if_pos]
    rw [normSquared_eq]; simp; exact mul_self_nonneg eps
  · obtain ⟨d, h1, h2, h3⟩ := plane_sqrt hu c heps (by
      rcases h with ⟨h, h'⟩ | h
      · exact Or.inl ⟨(plane_vector_eq_zero hu).mp h, h'⟩
      · rw [plane_vector_norm c hu] at h; exact Or.inr h)
    exact ⟨d, h1, h2, h3.le⟩

theorem lnPlane {c : ℂ} (h : Spec.LnPlane eps (plane u c)) :
    (plane u c).ln eps = plane u (Complex.log c) := by
  apply plane_ln hu c heps
  rcases h with ⟨h, h'⟩ | h
  · exact Or.inl ⟨(plane_vector_eq_zero hu).mp h, h'⟩
  · rw [plane_vector_norm c hu] at h; exact Or.inr h
end

theorem cos_neg_I_log {w : ℂ} (hw : w ≠ 0) : Complex.cos (-(Complex.I * Complex.log w)) = (w + w⁻¹) / 2 := by
  rw [Complex.cos, show -(Complex.I * Complex.log w) * Complex.I = Complex.log w by
    linear_combination (-Complex.log w) * Complex.I_mul_I,
    show -(-(Complex.I * Complex.log w)) * Complex.I = -Complex.log w by
    linear_combination (Complex.log w) * Complex.I_mul_I, Complex.exp_neg, Complex.exp_log hw]
theorem sin_neg_I_log {w : ℂ} (hw : w ≠ 0) :
    Complex.sin (-(Complex.I * Complex.log w)) = (w⁻¹ - w) * Complex.I / 2 := by
  rw [Complex.sin, show -(Complex.I * Complex.log w) * Complex.I = Complex.log w by
    linear_combination (-Complex.log w) * Complex.I_mul_I,
    show -(-(Complex.I * Complex.log w)) * Complex.I = -Complex.log w by
    linear_combination (Complex.log w) * Complex.I_mul_I, Complex.exp_neg, Complex.exp_log hw]
theorem cosh_log {w : ℂ} (hw : w ≠ 0) : Complex.cosh (Complex.log w) = (w + w⁻¹) / 2 := by
  rw [Complex.cosh, Complex.exp_neg, Complex.exp_log hw]
theorem sinh_log {w : ℂ} (hw : w ≠ 0) : Complex.sinh (Complex.log w) = (w - w⁻¹) / 2 := by
  rw [Complex.sinh, Complex.exp_neg, Complex.exp_log hw]

theorem ne_and_inv {w v : ℂ} (h : w * v = 1) : w ≠ 0 ∧ w⁻¹ = v :=
  ⟨left_ne_zero_of_mul_eq_one h, inv_eq_of_mul_eq_one_right h⟩

section
variable {eps : ℝ} (heps : 0 ≤ eps) (q : Quat ℝ)
include heps

theorem C48_cos_acos_partial (hv : q.vector ≠ 0) (h1 : Spec.SqrtPlane eps (q.squared - identity))
    (h2 : Spec.LnPlane eps (q + (q.squared - identity).sqrt eps)) : (q.acos eps).cos = q := by
  obtain ⟨hu, hq⟩ := eq_plane hv
  set u := q.vector.normalize
  set c : ℂ := ⟨q.s, q.vector.norm⟩
  have e1 : q.squared - identity = plane u (c * c - 1) := by
    rw [plane_sub, plane_mul c c hu, plane_one, ← hq]; rfl
  rw [e1] at h1
  obtain ⟨d, hd, hdd, -⟩ := sqrtPlane hu heps h1
  have e2 : q + (q.squared - identity).sqrt eps = plane u (c + d) := by rw [e1, hd, plane_add, ← hq]
  rw [e2] at h2
  unfold Quat.acos
  dsimp only
  rw [e2, lnPlane hu heps h2, show fromPure q.vector.normalize = plane u Complex.I from (plane_I u).symm,
    ← plane_mul _ _ hu, ← plane_neg, plane_cos hu]
  obtain ⟨hw, hi⟩ := ne_and_inv (w := c + d) (v := c - d) (by linear_combination -hdd)
  rw [cos_neg_I_log hw, hi]
  conv_rhs => rw [hq]
  congr 1; ring

theorem C48_sin_asin_partial (hv : q.vector ≠ 0) (h1 : Spec.SqrtPlane eps (identity - q.squared))
    (h2 : Spec.LnPlane eps (fromPure q.vector.normalize * q + (identity - q.squared).sqrt eps)) :
    (q.asin eps).sin = q := by
  obtain ⟨hu, hq⟩ := eq_plane hv
  set u := q.vector.normalize
  set c : ℂ := ⟨q.s, q.vector.norm⟩
  have e1 : identity - q.squared = plane u (1 - c * c) := by
    rw [plane_sub, plane_mul c c hu, plane_one, ← hq]; rfl
  have eI : fromPure u = plane u Complex.I := (plane_I u).symm
  rw [e1] at h1
  obtain ⟨d, hd, hdd, -⟩ := sqrtPlane hu heps h1
  have e2 : fromPure u * q + (identity - q.squared).sqrt eps = plane u (Complex.I * c + d) := by
    rw [e1, hd, plane_add, plane_mul _ _ hu, ← hq, eI]
  rw [e2] at h2
  unfold Quat.asin
  dsimp only
  rw [e2, lnPlane hu heps h2, eI, ← plane_mul _ _ hu, ← plane_neg, plane_sin hu]
  obtain ⟨hw, hi⟩ := ne_and_inv (w := Complex.I * c + d) (v := d - Complex.I * c) (by
    linear_combination hdd - c * c * Complex.I_mul_I)
  rw [sin_neg_I_log hw, hi]
  conv_rhs => rw [hq]
  congr 1; linear_combination -c * Complex.I_mul_I

theorem C48_cosh_acosh_partial (h1 : Spec.SqrtPlane eps (q + identity)) (h2 : Spec.SqrtPlane eps (q - identity))
    (h3 : Spec.LnPlane eps (q + (q + identity).sqrt eps * (q - identity).sqrt eps)) : (q.acosh eps).cosh = q := by
  obtain ⟨u, hu, c, -, -, hq⟩ := exists_plane q
  have e1 : q + identity = plane u (c + 1) := by rw [plane_add, plane_one, ← hq]
  have e2 : q - identity = plane u (c - 1) := by rw [plane_sub, plane_one, ← hq]
  rw [e1] at h1
  rw [e2] at h2
  obtain ⟨d, hd, hdd, -⟩ := sqrtPlane hu heps h1
  obtain ⟨e, he, hee, -⟩ := sqrtPlane hu heps h2
  have e3 : q + (q + identity).sqrt eps * (q - identity).sqrt eps = plane u (c + d * e) := by
    rw [e1, e2, hd, he, plane_add, plane_mul _ _ hu, ← hq]
  rw [e3] at h3
  unfold Quat.acosh
  dsimp only
  rw [e3, lnPlane hu heps h3, plane_cosh hu]
  obtain ⟨hw, hi⟩ := ne_and_inv (w := c + d * e) (v := c - d * e) (by
    linear_combination -(e * e * hdd) - (c + 1) * hee)
  rw [cosh_log hw, hi]
  conv_rhs => rw [hq]
  congr 1; ring

theorem C48_sinh_asinh_partial (h1 : Spec.SqrtPlane eps (q.squared + identity))
    (h2 : Spec.LnPlane eps (q + (q.squared + identity).sqrt eps)) : (q.asinh eps).sinh = q := by
  obtain ⟨u, hu, c, -, -, hq⟩ := exists_plane q
  have e1 : q.squared + identity = plane u (c * c + 1) := by
    rw [plane_add, plane_mul c c hu, plane_one, ← hq]; rfl
  rw [e1] at h1
  obtain ⟨d, hd, hdd, -⟩ := sqrtPlane hu heps h1
  have e2 : q + (q.squared + identity).sqrt eps = plane u (c + d) := by rw [e1, hd, plane_add, ← hq]
  rw [e2] at h2
  unfold Quat.asinh
  dsimp only
  rw [e2, lnPlane hu heps h2, plane_sinh hu]
  obtain ⟨hw, hi⟩ := ne_and_inv (w := c + d) (v := d - c) (by linear_combination hdd)
  rw [sinh_log hw, hi]
  conv_rhs => rw [hq]
  congr 1; ring

theorem C48_tanh_atanh_partial (hp : q ≠ identity) (hm : q ≠ -identity)
    (h1 : Spec.LnPlane eps (identity + q)) (h2 : Spec.LnPlane eps (identity - q)) : (q.atanh eps).tanh = q := by
  obtain ⟨u, hu, c, -, -, hq⟩ := exists_plane q
  have e1 : identity + q = plane u (1 + c) := by rw [plane_add, plane_one, ← hq]
  have e2 : identity - q = plane u (1 - c) := by rw [plane_sub, plane_one, ← hq]
  have hp' : (1 : ℂ) - c ≠ 0 := by
    intro h; apply hp; rw [hq, ← plane_one u, sub_eq_zero.mp h]
  have hm' : (1 : ℂ) + c ≠ 0 := by
    intro h; apply hm; rw [hq, ← plane_one u, ← plane_neg]; congr 1; linear_combination h
  rw [e1] at h1
  rw [e2] at h2
  set L := (Complex.log (1 + c) - Complex.log (1 - c)) / 2 with hL
  have eL : q.atanh eps = plane u L := by
    unfold Quat.atanh
    dsimp only
    rw [e1, e2, lnPlane hu heps h1, lnPlane hu heps h2, ← plane_sub]
    unfold half
    rw [one_add_one_eq_two, ← plane_mulS]
    congr 1; rw [hL]; push_cast; ring
  have hE : Complex.exp L * Complex.exp L * (1 - c) = 1 + c := by
    rw [← Complex.exp_add, show L + L = Complex.log (1 + c) - Complex.log (1 - c) by rw [hL]; ring,
      Complex.exp_sub, Complex.exp_log hm', Complex.exp_log hp']
    field_simp
  have hE0 := Complex.exp_ne_zero L
  have hcosh : Complex.cosh L * (2 * Complex.exp L * (1 - c)) = 2 := by
    rw [Complex.cosh, Complex.exp_neg]
    field_simp
    linear_combination hE
  have hsinh : Complex.sinh L * (2 * Complex.exp L * (1 - c)) = 2 * c := by
    rw [Complex.sinh, Complex.exp_neg]
    field_simp
    linear_combination hE
  have hc0 : Complex.cosh L ≠ 0 := by
    intro h; rw [h, zero_mul] at hcosh; exact two_ne_zero hcosh.symm
  rw [eL, plane_tanh hu _ hc0, Complex.tanh_eq_sinh_div_cosh]
  conv_rhs => rw [hq]
  congr 1
  rw [div_eq_iff hc0]
  have hne : 2 * Complex.exp L * (1 - c) ≠ 0 := by
    intro h; rw [h, mul_zero] at hcosh; exact two_ne_zero hcosh.symm
  apply mul_right_cancel₀ hne
  linear_combination hsinh - c * hcosh

/-- `atan` panics (its division is unwrapped) when `u - q` is too short to invert, `u` the direction of `q`;
otherwise it is a right inverse when the quotient is not a negative real. -/
theorem C48_tan_atan_partial (hv : q.vector ≠ 0) (hp : eps < (fromPure q.vector.normalize - q).norm)
    (h0 : q ≠ -fromPure q.vector.normalize)
    (h1 : ∀ r, (fromPure q.vector.normalize + q).divRight eps (fromPure q.vector.normalize - q) = some r →
      Spec.LnPlane eps r) :
    ∃ a, q.atan eps = .ok a ∧ a.tan = q := by
  obtain ⟨hu, hq⟩ := eq_plane hv
  set u := q.vector.normalize
  set c : ℂ := ⟨q.s, q.vector.norm⟩
  have eI : fromPure u = plane u Complex.I := (plane_I u).symm
  have e1 : fromPure u - q = plane u (Complex.I - c) := by rw [plane_sub, ← hq, eI]
  have e2 : fromPure u + q = plane u (Complex.I + c) := by rw [plane_add, ← hq, eI]
  rw [e1, e2] at h1
  rw [e1, plane_norm _ hu] at hp
  have hp' : Complex.I - c ≠ 0 := by
    intro h; rw [h, norm_zero] at hp; linarith
  have h0' : Complex.I + c ≠ 0 := by
    intro h; apply h0; rw [eI, ← plane_neg]
    conv_lhs => rw [hq]
    congr 1; linear_combination h
  have hdiv : (plane u (Complex.I + c)).divRight eps (plane u (Complex.I - c)) =
      some (plane u ((Complex.I + c) / (Complex.I - c))) := by
    unfold divRight tryInverse
    dsimp only
    rw [plane_normSquared _ hu, if_neg (by
      rw [Complex.normSq_eq_norm_sq, not_le, ← sq]; exact pow_lt_pow_left₀ hp heps two_ne_zero)]
    rw [Option.map_some, div_eq_mul_inv, plane_mul _ _ hu, Complex.inv_def]
    have : plane u (star (Complex.I - c)) / Complex.normSq (Complex.I - c) =
        plane u ((starRingEnd ℂ) (Complex.I - c) * ((Complex.normSq (Complex.I - c))⁻¹ : ℝ)) := by
      rw [plane_mulS]; apply ext4 <;> simp <;> ring
    rw [← plane_conj, this]
  have h1' := h1 _ hdiv
  refine ⟨_, by unfold Quat.atan; dsimp only; rw [e1, e2, hdiv]; rfl, ?_⟩
  beta_reduce
  rw [lnPlane hu heps h1']
  set z := (Complex.I + c) / (Complex.I - c) with hz
  have hz0 : z ≠ 0 := div_ne_zero h0' hp'
  have ehalf : (fromPure u).half = plane u (Complex.I / 2) := by
    rw [eI]; unfold half; rw [one_add_one_eq_two, ← plane_mulS]; congr 1; push_cast; ring
  change ((fromPure u).half * plane u (Complex.log z)).tan = q
  rw [ehalf, ← plane_mul _ _ hu, plane_tan hu]
  conv_rhs => rw [hq]
  congr 1
  set L := Complex.I / 2 * Complex.log z with hL
  set E := Complex.exp (L * Complex.I) with hE
  have hE0 : E ≠ 0 := Complex.exp_ne_zero _
  have hEE : E * E * (Complex.I + c) = Complex.I - c := by
    rw [hE, ← Complex.exp_add, show L * Complex.I + L * Complex.I = -Complex.log z by
      rw [hL]; linear_combination Complex.log z * Complex.I_mul_I, Complex.exp_neg, Complex.exp_log hz0, hz]
    field_simp
  have hcos : Complex.cos L = (E + E⁻¹) / 2 := by
    rw [Complex.cos, hE, ← Complex.exp_neg, neg_mul]
  have hsin : Complex.sin L = (E⁻¹ - E) * Complex.I / 2 := by
    rw [Complex.sin, hE, ← Complex.exp_neg, neg_mul]
  have k1 : Complex.cos L * (E * (Complex.I + c)) = Complex.I := by
    rw [hcos]; field_simp; linear_combination hEE
  have k2 : Complex.sin L * (E * (Complex.I + c)) = Complex.I * c := by
    rw [hsin]; field_simp; linear_combination -hEE
  have hc0 : Complex.cos L ≠ 0 := by
    intro h; rw [h, zero_mul] at k1; exact Complex.I_ne_zero k1.symm
  rw [Complex.tan_eq_sin_div_cos, div_eq_iff hc0]
  have hne : E * (Complex.I + c) ≠ 0 := mul_ne_zero hE0 h0'
  apply mul_right_cancel₀ hne
  linear_combination k2 - c * k1

end

/-! ### exact domains

With a zero tolerance the conditions above become conditions on `q` alone. -/

theorem plane_or (q : Quat ℝ) (h : q.vector = 0 → 0 ≤ q.scalar) : Spec.SqrtPlane 0 q ∧ Spec.LnPlane 0 q := by
  by_cases hv : q.vector = 0
  · refine ⟨?_, Or.inl ⟨hv, h hv⟩⟩
    rcases lt_or_eq_of_le (h hv) with h' | h'
    · exact Or.inr (Or.inl ⟨hv, h'⟩)
    · left; rw [eta_parts q, hv, ← scalar_eq, ← h']; apply ext4 <;> simp
  · exact ⟨Or.inr (Or.inr (Vec.norm_pos hv)), Or.inr (Vec.norm_pos hv)⟩

theorem plane_or' {u : Vec ℝ 3} (hu : u.normSquared = 1) (c : ℂ) (h : c.im = 0 → 0 ≤ c.re) :
    Spec.SqrtPlane 0 (plane u c) ∧ Spec.LnPlane 0 (plane u c) :=
  plane_or _ fun h' => h ((plane_vector_eq_zero hu).mp h')

/-- two reciprocal numbers are both real or both not -/
theorem im_of_mul_eq_one {w v : ℂ} (h : w * v = 1) (hw : w.im = 0) : v.im = 0 := by
  have h1 := congrArg Complex.re h
  have h2 := congrArg Complex.im h
  simp only [Complex.mul_re, Complex.mul_im, hw, Complex.one_re, Complex.one_im] at h1 h2
  have : w.re ≠ 0 := by rintro h0; rw [h0] at h1; simp at h1
  have h3 : w.re * v.im = 0 := by linarith
  exact (mul_eq_zero.mp h3).resolve_left this

/-- Missing: pure quaternions. -/
theorem C48_cos_acos_exact_partial (q : Quat ℝ) (hv : q.vector ≠ 0) (hs : q.scalar ≠ 0) : (q.acos 0).cos = q := by
  obtain ⟨hu, hq⟩ := eq_plane hv
  have e1 : q.squared - identity = plane q.vector.normalize
      ((⟨q.s, q.vector.norm⟩ : ℂ) * ⟨q.s, q.vector.norm⟩ - 1) := by
    rw [plane_sub, plane_mul _ _ hu, plane_one, ← hq]; rfl
  have hn := Vec.norm_pos hv
  have h1 : Spec.SqrtPlane 0 (q.squared - identity) := by
    rw [e1]; refine (plane_or' hu _ fun h => ?_).1
    simp only [Complex.sub_im, Complex.mul_im, Complex.one_im] at h
    have : q.s * q.vector.norm = 0 := by linarith
    exact absurd this (mul_ne_zero hs hn.ne')
  refine C48_cos_acos_partial le_rfl q hv h1 ?_
  rw [e1] at h1
  obtain ⟨d, hd, hdd, -⟩ := sqrtPlane hu le_rfl h1
  rw [e1, hd]
  conv => enter [2, 1]; rw [hq]
  rw [← plane_add]
  refine (plane_or' hu _ fun h => ?_).2
  have h' := im_of_mul_eq_one (v := ⟨q.s, q.vector.norm⟩ - d) (by linear_combination -hdd) h
  simp only [Complex.add_im, Complex.sub_im] at h h'
  linarith

/-- Every quaternion with a vector part. (For a real quaternion the code divides by a zero norm.) -/
theorem C48_sin_asin_exact (q : Quat ℝ) (hv : q.vector ≠ 0) : (q.asin 0).sin = q := by
  obtain ⟨hu, hq⟩ := eq_plane hv
  set u := q.vector.normalize with hudef
  set c : ℂ := ⟨q.s, q.vector.norm⟩ with hc
  have eI : fromPure u = plane u Complex.I := (plane_I u).symm
  have e1 : identity - q.squared = plane u (1 - c * c) := by
    rw [plane_sub, plane_mul _ _ hu, plane_one, ← hq]; rfl
  have hn := Vec.norm_pos hv
  have h1 : Spec.SqrtPlane 0 (identity - q.squared) := by
    rw [e1]; refine (plane_or' hu _ fun h => ?_).1
    simp only [hc, Complex.sub_im, Complex.mul_im, Complex.one_im] at h
    have h0 : q.s * q.vector.norm = 0 := by linarith
    have h0 := (mul_eq_zero.mp h0).resolve_right hn.ne'
    simp only [hc, Complex.sub_re, Complex.mul_re, Complex.one_re, h0]
    nlinarith
  refine C48_sin_asin_partial le_rfl q hv h1 ?_
  rw [e1] at h1
  obtain ⟨d, hd, hdd, hdre⟩ := sqrtPlane hu le_rfl h1
  rw [e1, hd, ← hudef, eI]
  conv => enter [2, 1]; rw [hq]
  rw [← plane_mul _ _ hu, ← plane_add]
  refine (plane_or' hu _ fun h => ?_).2
  have hone : (Complex.I * c + d) * (d - Complex.I * c) = 1 := by
    linear_combination hdd - c * c * Complex.I_mul_I
  have h' := im_of_mul_eq_one hone h
  have hre := congrArg Complex.re hone
  rw [Complex.mul_re, h, h'] at hre
  simp only [Complex.add_im, Complex.sub_im, Complex.add_re, Complex.sub_re, Complex.mul_re, Complex.mul_im,
    Complex.I_re, Complex.I_im, Complex.one_re, hc] at h h' hre ⊢
  by_contra hneg
  push Not at hneg
  nlinarith

/-- Missing: the reals at and below `-1`. (The reals in `(-1, 1)` are in `C48_cosh_acosh_interval_partial`.) -/
theorem C48_cosh_acosh_exact_partial (q : Quat ℝ) (h : q.vector ≠ 0 ∨ 1 ≤ q.scalar) : (q.acosh 0).cosh = q := by
  obtain ⟨u, hu, c, hre, him, hq⟩ := exists_plane q
  have e1 : q + identity = plane u (c + 1) := by rw [plane_add, plane_one, ← hq]
  have e2 : q - identity = plane u (c - 1) := by rw [plane_sub, plane_one, ← hq]
  have hc : c.im = 0 → 1 ≤ c.re := by
    intro h0
    rcases h with h | h
    · rw [h0] at him; exact absurd ((Vec.norm_eq_zero _).mp him.symm) h
    · rw [hre]; exact h
  have h1 : Spec.SqrtPlane 0 (q + identity) := by
    rw [e1]; refine (plane_or' hu _ fun h0 => ?_).1
    simp only [Complex.add_im, Complex.one_im, Complex.add_re, Complex.one_re] at h0 ⊢
    linarith [hc (by linarith)]
  have h2 : Spec.SqrtPlane 0 (q - identity) := by
    rw [e2]; refine (plane_or' hu _ fun h0 => ?_).1
    simp only [Complex.sub_im, Complex.one_im, Complex.sub_re, Complex.one_re] at h0 ⊢
    linarith [hc (by linarith)]
  refine C48_cosh_acosh_partial le_rfl q h1 h2 ?_
  rw [e1] at h1
  rw [e2] at h2
  obtain ⟨d, hd, hdd, hdre⟩ := sqrtPlane hu le_rfl h1
  obtain ⟨e, he, hee, here⟩ := sqrtPlane hu le_rfl h2
  rw [e1, e2, hd, he]
  conv => enter [2, 1]; rw [hq]
  rw [← plane_mul _ _ hu, ← plane_add]
  refine (plane_or' hu _ fun h0 => ?_).2
  have hone : (c + d * e) * (c - d * e) = 1 := by
    linear_combination -(e * e * hdd) - (c + 1) * hee
  have h' := im_of_mul_eq_one hone h0
  have hre := congrArg Complex.re hone
  rw [Complex.mul_re, h0, h'] at hre
  rw [Complex.add_im] at h0
  rw [Complex.sub_im] at h'
  have hc1 := hc (by linarith)
  simp only [Complex.add_re, Complex.sub_re, Complex.one_re] at hre ⊢
  by_contra hneg
  push Not at hneg
  nlinarith

/-- Missing: pure quaternions longer than one. -/
theorem C48_sinh_asinh_exact_partial (q : Quat ℝ) (h : q.scalar ≠ 0 ∨ q.vector.norm ≤ 1) :
    (q.asinh 0).sinh = q := by
  obtain ⟨u, hu, c, hre, him, hq⟩ := exists_plane q
  have hn := q.vector.norm_nonneg
  have e1 : q.squared + identity = plane u (c * c + 1) := by
    rw [plane_add, plane_mul c c hu, plane_one, ← hq]; rfl
  have h1 : Spec.SqrtPlane 0 (q.squared + identity) := by
    rw [e1]; refine (plane_or' hu _ fun h0 => ?_).1
    simp only [Complex.add_im, Complex.one_im, Complex.mul_im, Complex.mul_re, Complex.add_re, Complex.one_re,
      hre, him] at h0 ⊢
    have h0 : q.s * q.vector.norm = 0 := by linarith
    rcases mul_eq_zero.mp h0 with h0 | h0
    · have := h.resolve_left (by simpa using h0)
      nlinarith [mul_self_nonneg q.s]
    · rw [h0]; nlinarith
  refine C48_sinh_asinh_partial le_rfl q h1 ?_
  rw [e1] at h1
  obtain ⟨d, hd, hdd, hdre⟩ := sqrtPlane hu le_rfl h1
  rw [e1, hd]
  conv => enter [2, 1]; rw [hq]
  rw [← plane_add]
  refine (plane_or' hu _ fun h0 => ?_).2
  have hone : (c + d) * (d - c) = 1 := by linear_combination hdd
  have h' := im_of_mul_eq_one hone h0
  have hre := congrArg Complex.re hone
  rw [Complex.mul_re, h0, h'] at hre
  simp only [Complex.add_re, Complex.sub_re, Complex.one_re] at hre ⊢
  by_contra hneg
  push Not at hneg
  nlinarith

/-- Missing: the reals outside `(-1, 1)`. -/
theorem C48_tanh_atanh_exact_partial (q : Quat ℝ) (h : q.vector ≠ 0 ∨ |q.scalar| < 1) : (q.atanh 0).tanh = q := by
  have hv : q.vector = 0 → -1 < q.s ∧ q.s < 1 := fun h0 => abs_lt.mp (h.resolve_left (not_not.mpr h0))
  have hv1 : (identity + q).vector = q.vector := by apply Vec.ext3 <;> simp
  have hv2 : (identity - q).vector = -q.vector := by apply Vec.ext3 <;> simp
  have hv2' : (identity - q).vector = 0 → q.vector = 0 := by
    rw [hv2]; intro h
    apply Vec.ext3 <;> [have := congrArg (fun v => v.data 0) h; have := congrArg (fun v => v.data 1) h;
      have := congrArg (fun v => v.data 2) h] <;> simpa using this
  refine C48_tanh_atanh_partial le_rfl q ?_ ?_ (plane_or _ fun h0 => ?_).2 (plane_or _ fun h0 => ?_).2
  · intro he
    have := hv (by rw [he]; apply Vec.ext3 <;> simp)
    rw [he] at this; simp at this
  · intro he
    have := hv (by rw [he]; apply Vec.ext3 <;> simp)
    rw [he] at this; simp at this
  · rw [hv1] at h0; have := hv h0; simp; linarith
  · have := hv (hv2' h0); simp; linarith

/-- Missing: pure quaternions of length above one. (Length exactly one is where `tan` has no preimage.) -/
theorem C48_tan_atan_exact_partial (q : Quat ℝ) (hv : q.vector ≠ 0) (h : q.scalar ≠ 0 ∨ q.vector.norm < 1) :
    ∃ a, q.atan 0 = .ok a ∧ a.tan = q := by
  obtain ⟨hu, hq⟩ := eq_plane hv
  have hn := Vec.norm_pos hv
  set u := q.vector.normalize with hudef
  set c : ℂ := ⟨q.s, q.vector.norm⟩ with hc
  have eI : fromPure u = plane u Complex.I := (plane_I u).symm
  have e1 : fromPure u - q = plane u (Complex.I - c) := by rw [plane_sub, ← hq, eI]
  have e2 : fromPure u + q = plane u (Complex.I + c) := by rw [plane_add, ← hq, eI]
  have hne : Complex.I - c ≠ 0 := by
    intro h0
    have a := congrArg Complex.re h0
    have b := congrArg Complex.im h0
    simp only [hc, Complex.sub_re, Complex.sub_im, Complex.I_re, Complex.I_im, Complex.zero_re,
      Complex.zero_im] at a b
    rcases h with h | h
    · exact h (by simp; linarith)
    · linarith
  refine C48_tan_atan_partial le_rfl q hv ?_ ?_ ?_
  · rw [← hudef, e1, plane_norm _ hu]; exact norm_pos_iff.mpr hne
  · intro h0
    rw [← hudef, eI, ← plane_neg] at h0
    have := plane_injective hu (hq.symm.trans h0)
    have b := congrArg Complex.im this
    simp only [hc, Complex.neg_im, Complex.I_im] at b
    linarith
  · intro r hr
    have hr' : r = plane u ((Complex.I + c) / (Complex.I - c)) := by
      rw [← hudef, e1, e2] at hr
      unfold divRight tryInverse at hr
      dsimp only at hr
      rw [plane_normSquared _ hu, if_neg (by rw [mul_zero, not_le]; exact Complex.normSq_pos.mpr hne)] at hr
      rw [Option.map_some, Option.some.injEq] at hr
      rw [← hr, div_eq_mul_inv, plane_mul _ _ hu, Complex.inv_def]
      congr 1
      rw [← plane_conj]
      rw [plane_mulS]; apply ext4 <;> simp <;> ring
    rw [hr']
    refine (plane_or' hu _ fun h0 => ?_).2
    have hns := Complex.normSq_pos.mpr hne
    rw [Complex.div_im] at h0
    rw [Complex.div_re]
    rw [← sub_div, div_eq_zero_iff, or_iff_left hns.ne'] at h0
    rw [← add_div]
    apply div_nonneg _ hns.le
    simp only [hc, Complex.add_re, Complex.sub_re, Complex.add_im, Complex.sub_im, Complex.I_re,
      Complex.I_im] at h0 ⊢
    have hs : q.s = 0 := by nlinarith
    have := h.resolve_left (by simpa using hs)
    rw [hs]; nlinarith

/-! ### where they are not right inverses -/

/-- the claims, for all quaternions with a vector part (`acos`, `asinh`, `atan`), all reals (`acosh`), and all
reals but the two poles (`atanh`) -/
def Spec.AcosRightInverse (eps : ℝ) : Prop := ∀ q : Quat ℝ, q.vector ≠ 0 → (q.acos eps).cos = q
def Spec.AsinhRightInverse (eps : ℝ) : Prop := ∀ q : Quat ℝ, q.vector ≠ 0 → (q.asinh eps).sinh = q
def Spec.AcoshRightInverse (eps : ℝ) : Prop := ∀ x : ℝ, ((fromReal x).acosh eps).cosh = fromReal x
def Spec.AtanhRightInverse (eps : ℝ) : Prop :=
  ∀ x : ℝ, x ≠ 1 → x ≠ -1 → ((fromReal x).atanh eps).tanh = fromReal x
def Spec.AtanRightInverse (eps : ℝ) : Prop :=
  ∀ q : Quat ℝ, q.vector ≠ 0 → q ≠ fromPure q.vector.normalize → ∀ a, q.atan eps = .ok a → a.tan = q

theorem ln_real {eps : ℝ} (x : ℝ) : (fromReal x).ln eps = fromReal (Real.log |x|) := by
  unfold Quat.ln
  dsimp only
  rw [if_pos (by rw [vector_normSquared]; simp; exact mul_self_nonneg eps)]
  rfl

/-- `tanh (atanh x) ≠ x` for every real `x` with `|x| > 1`: the code uses `ln |1 - x|`. -/
theorem C48_atanh_fails_real {eps : ℝ} (x : ℝ) (h : 1 ≤ |x|) :
    ((fromReal x).atanh eps).tanh ≠ fromReal x := by
  intro he
  have e1 : identity + fromReal x = fromReal (1 + x) := by apply ext4 <;> simp
  have e2 : identity - fromReal x = fromReal (1 - x) := by apply ext4 <;> simp
  have e3 : (fromReal x).atanh eps = fromReal ((Real.log |1 + x| - Real.log |1 - x|) * (1 / (1 + 1))) := by
    unfold Quat.atanh
    dsimp only
    rw [e1, e2, ln_real, ln_real]; apply ext4 <;> simp [half]
  rw [e3, (C48_real _).2.2.2.2.2] at he
  have hs := congrArg Quat.s he
  simp only [fromReal_s] at hs
  have := Real.abs_tanh_lt_one ((Real.log |1 + x| - Real.log |1 - x|) * (1 / (1 + 1)))
  rw [hs] at this
  linarith

theorem C48_atanh_fails (eps : ℝ) : ¬ Spec.AtanhRightInverse eps := fun h =>
  C48_atanh_fails_real 2 (by norm_num) (h 2 (by norm_num) (by norm_num))

/-! `sqrt` of a negative real is a multiple of `i`. -/

theorem sqrt_neg_real {eps : ℝ} (heps : 0 ≤ eps) {a : ℝ} (ha : eps < a) :
    (fromReal (-a)).sqrt eps = fromPure (Vec.new3 (Real.sqrt a) 0 0) := by
  have ha0 : 0 < a := heps.trans_lt ha
  have hns : (fromReal (-a)).normSquared = a * a := by rw [normSquared_eq]; simp
  unfold Quat.sqrt
  dsimp only
  rw [hns, if_neg (by nlinarith), if_pos (by rw [vector_normSquared]; simp; exact mul_self_nonneg eps), if_neg (by
    simp; linarith)]
  simp only [fsqrt_real]
  rw [Real.sqrt_mul_self ha0.le]

/-- The reals strictly between `-1` and `1`: the code answers in the plane of `i`. -/
theorem C48_cosh_acosh_interval_partial (x : ℝ) (h1 : -1 < x) (h2 : x < 1) :
    ((fromReal x).acosh 0).cosh = fromReal x := by
  have hu := unitX3_normSquared
  have e2 : fromReal x - identity = fromReal (-(1 - x)) := by apply ext4 <;> simp
  have e1 : (fromReal x + identity).sqrt 0 = fromReal (Real.sqrt (x + 1)) := by
    have : fromReal x + identity = fromReal (x + 1) := by apply ext4 <;> simp
    have hns : (fromReal (x + 1)).normSquared = (x + 1) * (x + 1) := by rw [normSquared_eq]; simp
    rw [this]
    unfold Quat.sqrt
    dsimp only
    rw [hns, if_neg (by nlinarith), if_pos (by rw [vector_normSquared]; simp), if_pos (by simp; linarith)]
    simp only [fsqrt_real]
    rw [Real.sqrt_mul_self (by linarith)]
  have hpos : 0 < Real.sqrt (x + 1) * Real.sqrt (1 - x) :=
    mul_pos (Real.sqrt_pos.mpr (by linarith)) (Real.sqrt_pos.mpr (by linarith))
  set t := Real.sqrt (x + 1) * Real.sqrt (1 - x) with ht
  have htt : t * t = 1 - x * x := by
    have a := Real.mul_self_sqrt (show 0 ≤ x + 1 by linarith)
    have b := Real.mul_self_sqrt (show 0 ≤ 1 - x by linarith)
    rw [ht]
    linear_combination Real.sqrt (1 - x) * Real.sqrt (1 - x) * a + (x + 1) * b
  have e3 : fromReal x + (fromReal x + identity).sqrt 0 * (fromReal x - identity).sqrt 0 =
      plane Vec.unitX3 ⟨x, t⟩ := by
    rw [e1, e2, sqrt_neg_real le_rfl (by linarith)]
    apply ext4 <;> simp [Vec.unitX3, ht]
  unfold Quat.acosh
  dsimp only
  rw [e3, plane_ln hu _ le_rfl (Or.inr (by simpa using hpos.ne')), plane_cosh hu]
  obtain ⟨hw, hi⟩ := ne_and_inv (w := (⟨x, t⟩ : ℂ)) (v := ⟨x, -t⟩) (by
    apply Complex.ext
    · simp; linarith
    · simp; ring)
  rw [cosh_log hw, hi, ← plane_ofReal Vec.unitX3]
  congr 1
  apply Complex.ext <;> simp

theorem C48_acosh_fails_real {eps : ℝ} (heps : 0 ≤ eps) (x : ℝ) (hx : x + 1 < -eps) :
    ((fromReal x).acosh eps).cosh ≠ fromReal x := by
  intro he
  have e1 : fromReal x + identity = fromReal (-(-(x + 1))) := by apply ext4 <;> simp
  have e2 : fromReal x - identity = fromReal (-(-(x - 1))) := by
    apply ext4 <;> simp
  have e3 : fromReal x + (fromReal x + identity).sqrt eps * (fromReal x - identity).sqrt eps =
      fromReal (x - Real.sqrt (-(x + 1)) * Real.sqrt (-(x - 1))) := by
    rw [e1, e2, sqrt_neg_real heps (by linarith), sqrt_neg_real heps (by linarith)]
    apply ext4 <;> simp <;> ring
  unfold Quat.acosh at he
  dsimp only at he
  rw [e3, ln_real, (C48_real _).2.2.2.1] at he
  have hs := congrArg Quat.s he
  simp only [fromReal_s] at hs
  have := Real.cosh_pos (Real.log |x - Real.sqrt (-(x + 1)) * Real.sqrt (-(x - 1))|)
  linarith

theorem C48_acosh_fails {eps : ℝ} (heps : 0 ≤ eps) : ¬ Spec.AcoshRightInverse eps := fun h =>
  C48_acosh_fails_real heps (-(2 + eps)) (by linarith) (h _)

/-- `ln` of a pure quaternion with a resolved vector part -/
theorem ln_pure {eps : ℝ} (heps : 0 ≤ eps) (v : Vec ℝ 3) (hv : eps < v.norm) :
    (fromPure v).ln eps = fromParts (Real.log v.norm) (v * (Real.pi / 2 / v.norm)) := by
  have hvec : (fromPure v).vector = v := vector_fromParts _ _
  have hnorm : (fromPure v).norm = v.norm := by
    rw [norm_def, Vec.norm_def]; congr 1
    rw [normSquared_eq, ← hvec, vector_normSquared]; simp [hvec]
  unfold Quat.ln
  dsimp only
  rw [hvec, if_neg (by rw [← Vec.norm_mul_norm]; nlinarith), hnorm]
  have : (fromPure v).scalar / v.norm = 0 := by simp
  rw [this]
  change fromParts (Real.log v.norm) (v * (Real.arccos 0 / v.norm)) = _
  rw [Real.arccos_zero]

/-- A pure quaternion along `j`, longer than one: `sinh (asinh q)` has a component along `i`. -/
theorem C48_asinh_fails_j {eps : ℝ} (heps : 0 ≤ eps) (y : ℝ) (hy : 1 + eps < y) :
    ((new 0 0 y 0 : Quat ℝ).asinh eps).sinh ≠ new 0 0 y 0 := by
  intro he
  have hyy : eps < y * y - 1 := by nlinarith
  have hpos : 0 < y * y - 1 := heps.trans_lt hyy
  set w := Real.sqrt (y * y - 1) with hw
  have hw0 : 0 < w := Real.sqrt_pos.mpr hpos
  have e1 : (new 0 0 y 0 : Quat ℝ).squared + identity = fromReal (-(y * y - 1)) := by
    apply ext4 <;> simp [squared] <;> ring
  have e3 : (new 0 0 y 0 : Quat ℝ) + ((new 0 0 y 0 : Quat ℝ).squared + identity).sqrt eps =
      fromPure (Vec.new3 w y 0) := by
    rw [e1, sqrt_neg_real heps hyy]; apply ext4 <;> simp [hw]
  have hns : (Vec.new3 w y 0 : Vec ℝ 3).normSquared = w * w + y * y := by
    simp [Vec.normSquared, Vec.dot3]
  have hn : 0 < (Vec.new3 w y 0 : Vec ℝ 3).norm := by
    rw [Vec.norm_def, hns]; exact Real.sqrt_pos.mpr (by nlinarith)
  have hbig : eps < (Vec.new3 w y 0 : Vec ℝ 3).norm := by
    have hnn := Vec.norm_mul_norm (Vec.new3 w y 0 : Vec ℝ 3)
    rw [hns] at hnn
    nlinarith
  set n := (Vec.new3 w y 0 : Vec ℝ 3).norm with hndef
  have e4 : (new 0 0 y 0 : Quat ℝ).asinh eps = plane (Vec.new3 w y 0 * (1 / n)) ⟨Real.log n, Real.pi / 2⟩ := by
    unfold Quat.asinh
    dsimp only
    rw [e3, ln_pure heps _ hbig, ← hndef]
    apply ext4 <;> simp <;> ring
  have hu : (Vec.new3 w y 0 * (1 / n) : Vec ℝ 3).normSquared = 1 := by
    rw [Vec.normSquared_mulS, ← Vec.norm_mul_norm, ← hndef]; field_simp
  rw [e4, plane_sinh hu, sinh_re_im] at he
  have hx := congrArg Quat.x he
  simp at hx
  have := Real.cosh_pos (Real.log n)
  rcases hx with hx | hx
  · rcases hx with hx | hx <;> linarith
  · exact this.ne' hx

theorem C48_asinh_fails {eps : ℝ} (heps : 0 ≤ eps) : ¬ Spec.AsinhRightInverse eps := fun h =>
  C48_asinh_fails_j heps (2 + eps) (by linarith) (h _ (by
    intro h0; have := congrArg (fun v => v.data 1) h0; simp at this; linarith))

/-- The pure quaternion `j`: `cos (acos j)` has a component along `k`. -/
theorem C48_acos_fails {eps : ℝ} (heps : 0 ≤ eps) (heps1 : eps < 1) : ¬ Spec.AcosRightInverse eps := by
  intro h
  have hvec : (new 0 0 1 0 : Quat ℝ).vector = Vec.new3 0 1 0 := by apply Vec.ext3 <;> simp
  have he := h (new 0 0 1 0) (by
    intro h0; have := congrArg (fun v => v.data 1) h0; simp at this)
  have e1 : (new 0 0 1 0 : Quat ℝ).squared - identity = fromReal (-2) := by
    apply ext4 <;> simp [squared]; norm_num
  have e3 : (new 0 0 1 0 : Quat ℝ) + ((new 0 0 1 0 : Quat ℝ).squared - identity).sqrt eps =
      fromPure (Vec.new3 (Real.sqrt 2) 1 0) := by
    rw [e1, sqrt_neg_real heps (by linarith)]; apply ext4 <;> simp
  have hns : (Vec.new3 (Real.sqrt 2) 1 0 : Vec ℝ 3).normSquared = 3 := by
    simp [Vec.normSquared, Vec.dot3]; norm_num
  have hn : (Vec.new3 (Real.sqrt 2) 1 0 : Vec ℝ 3).norm = Real.sqrt 3 := by rw [Vec.norm_def, hns]
  have h13 : 1 < Real.sqrt 3 := by rw [Real.lt_sqrt] <;> norm_num
  have hunit : (Vec.new3 0 1 0 : Vec ℝ 3).normalize = Vec.new3 0 1 0 := by
    have : (Vec.new3 0 1 0 : Vec ℝ 3).norm = 1 := by
      rw [Vec.norm_def]; simp [Vec.normSquared, Vec.dot3]
    rw [Vec.normalize_def, this]; apply Vec.ext3 <;> simp
  set b := Real.pi / 2 / Real.sqrt 3 with hb
  set a := Real.log (Real.sqrt 3) with ha
  have hb0 : 0 < b := by positivity
  have hbpi : b < Real.pi := by
    rw [hb, div_lt_iff₀ (by positivity)]; nlinarith [Real.pi_pos]
  have e4 : (new 0 0 1 0 : Quat ℝ).acos eps = new b 0 (-a) (b * Real.sqrt 2) := by
    unfold Quat.acos
    dsimp only
    rw [e3, ln_pure heps _ (by rw [hn]; linarith), hn, hvec, hunit, ← hb, ← ha]
    apply ext4 <;> simp <;> ring
  rw [e4] at he
  have hz := congrArg Quat.z he
  have hvn : (new b 0 (-a) (b * Real.sqrt 2) : Quat ℝ).vector ≠ 0 := by
    intro h0; have := congrArg (fun v => v.data 2) h0
    simp at this; exact hb0.ne' this
  have hp := Vec.norm_pos hvn
  unfold Quat.cos at hz
  simp only [beq_iff_eq] at hz
  rw [if_neg hp.ne'] at hz
  have hsin := Real.sin_pos_of_pos_of_lt_pi hb0 hbpi
  have hsinh := Real.sinh_pos_iff.mpr hp
  simp at hz
  rcases hz with hz | hz
  · exact hb0.ne' hz
  · rcases hz with hz | hz
    · exact hsin.ne' hz
    · exact hp.ne' hz

/-- A pure quaternion along `j`, longer than one: `tan (atan q)` has length below one. -/
theorem C48_atan_fails_j {eps : ℝ} (heps : 0 ≤ eps) (y : ℝ) (hy : 1 + eps < y) (a : Quat ℝ)
    (ha : (new 0 0 y 0 : Quat ℝ).atan eps = .ok a) : a.tan ≠ new 0 0 y 0 := by
  intro he
  have hvec : (new 0 0 y 0 : Quat ℝ).vector = Vec.new3 0 y 0 := by apply Vec.ext3 <;> simp
  have hn : (Vec.new3 0 y 0 : Vec ℝ 3).norm = y := by
    rw [Vec.norm_def]; simp [Vec.normSquared, Vec.dot3]; exact Real.sqrt_mul_self (by linarith)
  have hunit : (Vec.new3 0 y 0 : Vec ℝ 3).normalize = Vec.new3 0 1 0 := by
    have : y ≠ 0 := by linarith
    rw [Vec.normalize_def, hn]; apply Vec.ext3 <;> simp [this]
  have hu : (Vec.new3 0 1 0 : Vec ℝ 3).normSquared = 1 := by simp [Vec.normSquared, Vec.dot3]
  have hns : (fromPure (Vec.new3 0 1 0) - new 0 0 y 0 : Quat ℝ).normSquared = (y - 1) * (y - 1) := by
    rw [normSquared_eq]; simp; ring
  have hdiv : (fromPure (Vec.new3 0 1 0) + new 0 0 y 0 : Quat ℝ).divRight eps
      (fromPure (Vec.new3 0 1 0) - new 0 0 y 0) = some (fromReal (-((y + 1) / (y - 1)))) := by
    unfold divRight tryInverse
    dsimp only
    have hy1 : y - 1 ≠ 0 := by linarith
    rw [hns, if_neg (by nlinarith), Option.map_some]
    congr 1
    apply ext4 <;> simp
    field_simp; ring
  unfold Quat.atan at ha
  dsimp only at ha
  rw [hvec, hunit, hdiv] at ha
  have ha' : a = plane (Vec.new3 0 1 0) ((Real.log |-((y + 1) / (y - 1))| / 2 : ℝ) * Complex.I) := by
    have : a = (fromPure (Vec.new3 0 1 0)).half * (fromReal (-((y + 1) / (y - 1)))).ln eps := by
      injection ha with ha; exact ha.symm
    rw [this, ln_real]
    apply ext4 <;> simp [half]; norm_num; ring
  rw [ha', plane_tan hu, Complex.tan_mul_I, ← Complex.ofReal_tanh] at he
  have hyc := congrArg Quat.y he
  simp only [plane_y, Complex.mul_im, Complex.ofReal_re, Complex.I_im, Complex.ofReal_im, Complex.I_re] at hyc
  have h1 := (abs_lt.mp (Real.abs_tanh_lt_one (Real.log |-((y + 1) / (y - 1))| / 2))).2
  simp at hyc
  simp at h1
  linarith

theorem C48_atan_fails {eps : ℝ} (heps : 0 ≤ eps) : ¬ Spec.AtanRightInverse eps := by
  intro h
  have hvec : (new 0 0 (2 + eps) 0 : Quat ℝ).vector = Vec.new3 0 (2 + eps) 0 := by apply Vec.ext3 <;> simp
  have hn : (Vec.new3 0 (2 + eps) 0 : Vec ℝ 3).norm = 2 + eps := by
    rw [Vec.norm_def]; simp [Vec.normSquared, Vec.dot3]; exact Real.sqrt_mul_self (by linarith)
  have h2 : (2 + eps : ℝ) ≠ 0 := by linarith
  have hunit : (Vec.new3 0 (2 + eps) 0 : Vec ℝ 3).normalize = Vec.new3 0 1 0 := by
    rw [Vec.normalize_def, hn]; apply Vec.ext3 <;> simp [h2]
  have hok : ∃ a, (new 0 0 (2 + eps) 0 : Quat ℝ).atan eps = .ok a := by
    unfold Quat.atan divRight tryInverse
    dsimp only
    rw [hvec, hunit]
    have hns : (fromPure (Vec.new3 0 1 0) - new 0 0 (2 + eps) 0 : Quat ℝ).normSquared =
        (1 + eps) * (1 + eps) := by
      rw [normSquared_eq]; simp; ring
    rw [hns, if_neg (by nlinarith)]
    exact ⟨_, rfl⟩
  obtain ⟨a, ha⟩ := hok
  refine C48_atan_fails_j heps (2 + eps) (by linarith) a ha (h _ ?_ ?_ a ha)
  · rw [hvec]; intro h0; have := congrArg (fun v => v.data 1) h0; simp at this; linarith
  · rw [hvec, hunit]; intro h0; have := congrArg Quat.y h0; simp at this; linarith

/-- The cases the exact theorems cover are inhabited: a quaternion with both parts non-zero, and a short one. -/
example : (new 1 0 2 0 : Quat ℝ).vector ≠ 0 ∧ (new 1 0 2 0 : Quat ℝ).scalar ≠ 0 := by
  constructor
  · intro h0; have := congrArg (fun v => v.data 1) h0; simp at this
  · simp

end Cgl

import Verif.Lemmas.Quaternion
import Verif.Lemmas.Complex
import Mathlib.Analysis.SpecialFunctions.Trigonometric.Complex

/-!
# Complex planes in the quaternions

For a unit vector `u` the quaternions `a + b u` are a copy of the complex numbers. Every quaternion lies in
such a plane, and the transcendental functions act inside it.
-/

namespace Cgl
namespace Quat

/-- the quaternion `a + b u` of the complex number `a + b i` -/
noncomputable def plane (u : Vec ℝ 3) (c : ℂ) : Quat ℝ := fromParts c.re (u * c.im)

section
variable (u : Vec ℝ 3) (c d : ℂ)

@[simp] theorem plane_s : (plane u c).s = c.re := rfl
@[simp] theorem plane_x : (plane u c).x = u.data 0 * c.im := by simp [plane]
@[simp] theorem plane_y : (plane u c).y = u.data 1 * c.im := by simp [plane]
@[simp] theorem plane_z : (plane u c).z = u.data 2 * c.im := by simp [plane]
@[simp] theorem plane_vector : (plane u c).vector = u * c.im := by simp [plane]
@[simp] theorem plane_scalar : (plane u c).scalar = c.re := rfl

theorem plane_add : plane u (c + d) = plane u c + plane u d := by apply ext4 <;> simp <;> ring
theorem plane_sub : plane u (c - d) = plane u c - plane u d := by apply ext4 <;> simp <;> ring
theorem plane_neg : plane u (-c) = -plane u c := by apply ext4 <;> simp
theorem plane_one : plane u 1 = identity := by apply ext4 <;> simp
theorem plane_zero : plane u 0 = 0 := by apply ext4 <;> simp
theorem plane_I : plane u Complex.I = fromPure u := by apply ext4 <;> simp
theorem plane_ofReal (a : ℝ) : plane u a = fromReal a := by apply ext4 <;> simp
theorem plane_mulS (k : ℝ) : plane u (c * k) = plane u c * k := by apply ext4 <;> simp <;> ring
theorem plane_conj : plane u (star c) = (plane u c).conjugate := by apply ext4 <;> simp

variable {u} (hu : u.normSquared = 1)
include hu

theorem unit_sq : u.data 0 ^ 2 + u.data 1 ^ 2 + u.data 2 ^ 2 = 1 := by
  simp only [Vec.normSquared, Vec.dot3] at hu; linarith

theorem plane_mul : plane u (c * d) = plane u c * plane u d := by
  have h := unit_sq hu
  apply ext4 <;> simp
  · linear_combination (c.im * d.im) * h
  · ring
  · ring
  · ring

theorem plane_vector_normSquared : (plane u c).vector.normSquared = c.im * c.im := by
  rw [plane_vector, Vec.normSquared_mulS, hu, one_mul]
theorem plane_vector_norm : (plane u c).vector.norm = |c.im| := by
  rw [Vec.norm_def, plane_vector_normSquared c hu, Real.sqrt_mul_self_eq_abs]
theorem plane_normSquared : (plane u c).normSquared = Complex.normSq c := by
  have h := unit_sq hu
  rw [normSquared_eq, Complex.normSq_apply]; simp
  linear_combination c.im ^ 2 * h
theorem plane_norm : (plane u c).norm = ‖c‖ := by
  rw [norm_def, plane_normSquared c hu, Complex.norm_def]
theorem plane_injective {c d : ℂ} (h : plane u c = plane u d) : c = d := by
  have hn : (plane u (c - d)).normSquared = 0 := by
    rw [plane_sub, h]; simp [normSquared_eq]
  rw [plane_normSquared _ hu, Complex.normSq_eq_zero] at hn
  exact sub_eq_zero.mp hn
theorem plane_ne_zero {c : ℂ} (h : c ≠ 0) : plane u c ≠ 0 := by
  rw [← plane_zero u]; exact fun e => h (plane_injective hu e)

end

theorem unitX3_normSquared : (Vec.unitX3 : Vec ℝ 3).normSquared = 1 := by
  simp [Vec.normSquared, Vec.dot3, Vec.unitX3]

/-- A quaternion with non-zero vector part lies in the plane of its direction, in the upper half. -/
theorem eq_plane {q : Quat ℝ} (h : q.vector ≠ 0) :
    q.vector.normalize.normSquared = 1 ∧ q = plane q.vector.normalize ⟨q.s, q.vector.norm⟩ := by
  refine ⟨Vec.normalize_normSquared h, ?_⟩
  have hm := Vec.normalize_mul_norm h
  conv_lhs => rw [eta_parts q, ← hm]
  rfl

/-- A real quaternion lies in every plane. -/
theorem eq_plane_real {q : Quat ℝ} (h : q.vector = 0) (u : Vec ℝ 3) : q = plane u (q.s : ℂ) := by
  rw [plane_ofReal]
  conv_lhs => rw [eta_parts q, h]
  rfl

/-- Every quaternion lies in some plane, in the closed upper half. -/
theorem exists_plane (q : Quat ℝ) : ∃ u : Vec ℝ 3, u.normSquared = 1 ∧ ∃ c : ℂ, c.re = q.s ∧
    c.im = q.vector.norm ∧ q = plane u c := by
  by_cases h : q.vector = 0
  · exact ⟨Vec.unitX3, unitX3_normSquared, (q.s : ℂ), by simp, by
      rw [(Vec.norm_eq_zero _).mpr h]; simp, eq_plane_real h _⟩
  · exact ⟨_, (eq_plane h).1, ⟨q.s, q.vector.norm⟩, rfl, rfl, (eq_plane h).2⟩

theorem vec_div_abs (u : Vec ℝ 3) {a : ℝ} (ha : a ≠ 0) (k f : ℝ) (hf : f * |a| = k * a) :
    u * a * (k / |a|) = u * f := by
  have : |a| ≠ 0 := abs_ne_zero.mpr ha
  have e : a * (k / |a|) = f := by field_simp; linarith
  apply Vec.ext3 <;> simp only [Vec.mulS_data] <;> rw [mul_assoc, e]

theorem sin_abs_mul (a : ℝ) : Real.sin a * |a| = Real.sin |a| * a := by
  rcases abs_choice a with h | h <;> rw [h]
  rw [Real.sin_neg]; ring
theorem sinh_abs_mul (a : ℝ) : Real.sinh a * |a| = Real.sinh |a| * a := by
  rcases abs_choice a with h | h <;> rw [h]
  rw [Real.sinh_neg]; ring

section
variable {u : Vec ℝ 3} (hu : u.normSquared = 1) (c : ℂ)
include hu

theorem vector_le_iff {eps : ℝ} (heps : 0 ≤ eps) :
    (plane u c).vector.normSquared ≤ eps * eps ↔ |c.im| ≤ eps := by
  rw [plane_vector_normSquared c hu, ← abs_mul_abs_self, ← sq, ← sq, sq_le_sq₀ (abs_nonneg _) heps]

theorem plane_exp {eps : ℝ} (heps : 0 ≤ eps) (h : c.im = 0 ∨ eps < |c.im|) :
    (plane u c).exp eps = plane u (Complex.exp c) := by
  have hexp : Complex.exp c = ⟨Real.exp c.re * Real.cos c.im, Real.exp c.re * Real.sin c.im⟩ := by
    apply Complex.ext
    · simp [Complex.exp_re]
    · simp [Complex.exp_im]
  unfold Quat.exp
  dsimp only
  by_cases hle : (plane u c).vector.normSquared ≤ eps * eps
  · rw [if_pos hle]
    have h0 : c.im = 0 := by
      rcases h with h | h
      · exact h
      · exact absurd ((vector_le_iff hu c heps).mp hle) (not_le.mpr h)
    rw [hexp, h0]; apply ext4 <;> simp
  · rw [if_neg hle]
    have h0 : c.im ≠ 0 := by
      intro h0; apply hle; rw [plane_vector_normSquared c hu, h0]; nlinarith
    have hs : fsqrt (plane u c).vector.normSquared = |c.im| := plane_vector_norm c hu
    rw [hs, hexp, plane_vector, vec_div_abs u h0 _ (Real.exp c.re * Real.sin c.im)]
    · simp [plane]
    · simp only [plane_scalar, fexp_real, fsin_real]; rw [mul_assoc, sin_abs_mul]; ring

theorem plane_ln {eps : ℝ} (heps : 0 ≤ eps) (h : (c.im = 0 ∧ 0 ≤ c.re) ∨ eps < |c.im|) :
    (plane u c).ln eps = plane u (Complex.log c) := by
  have hlog : Complex.log c = ⟨Real.log ‖c‖, c.arg⟩ := by
    apply Complex.ext
    · simp [Complex.log_re]
    · simp [Complex.log_im]
  unfold Quat.ln
  dsimp only
  by_cases hle : (plane u c).vector.normSquared ≤ eps * eps
  · rw [if_pos hle]
    obtain ⟨h0, hre⟩ : c.im = 0 ∧ 0 ≤ c.re := by
      rcases h with h | h
      · exact h
      · exact absurd ((vector_le_iff hu c heps).mp hle) (not_le.mpr h)
    have hc : c = (c.re : ℂ) := by apply Complex.ext <;> simp [h0]
    have ha : c.arg = 0 := by rw [hc]; exact Complex.arg_ofReal_of_nonneg hre
    have hn : ‖c‖ = |c.re| := by rw [hc, Complex.norm_real]; rfl
    rw [hlog, ha, hn]; apply ext4 <;> simp [Vec.sabs_real]
  · rw [if_neg hle]
    have h0 : c.im ≠ 0 := by
      intro h0; apply hle; rw [plane_vector_normSquared c hu, h0]; nlinarith
    have hs : fsqrt (plane u c).vector.normSquared = |c.im| := plane_vector_norm c hu
    have hc : c ≠ 0 := by rintro rfl; simp at h0
    rw [hs, hlog, plane_vector, plane_norm c hu, vec_div_abs u h0 _ c.arg]
    · simp [plane]
    · simp only [plane_scalar, facos_real]
      rcases lt_or_gt_of_ne h0 with hneg | hpos
      · rw [Complex.arg_of_im_neg hneg, abs_of_neg hneg]; ring
      · rw [Complex.arg_of_im_nonneg_of_ne_zero hpos.le hc, abs_of_pos hpos]

/-- On the plane the code's square root is a complex square root. -/
theorem plane_sqrt {eps : ℝ} (heps : 0 ≤ eps) (h : (c.im = 0 ∧ eps < c.re) ∨ eps < |c.im|) :
    ∃ d : ℂ, (plane u c).sqrt eps = plane u d ∧ d * d = c ∧ 0 < d.re := by
  have hpos : eps < ‖c‖ := by
    rcases h with ⟨_, h⟩ | h
    · exact h.trans_le ((le_abs_self _).trans (Complex.abs_re_le_norm c))
    · exact h.trans_le (Complex.abs_im_le_norm c)
  have hns : (plane u c).normSquared = ‖c‖ ^ 2 := by
    rw [plane_normSquared c hu, Complex.normSq_eq_norm_sq]
  have hns1 : ¬ (plane u c).normSquared ≤ eps * eps := by
    rw [hns, ← sq, not_le]; exact pow_lt_pow_left₀ hpos heps two_ne_zero
  have hs1 : fsqrt (plane u c).normSquared = ‖c‖ := plane_norm c hu
  unfold Quat.sqrt
  dsimp only
  rw [if_neg hns1, hs1]
  by_cases hle : (plane u c).vector.normSquared ≤ eps * eps
  · rw [if_pos hle]
    obtain ⟨h0, hre⟩ : c.im = 0 ∧ eps < c.re := by
      rcases h with h | h
      · exact h
      · exact absurd ((vector_le_iff hu c heps).mp hle) (not_le.mpr h)
    have hre' : 0 < c.re := heps.trans_lt hre
    have hc : c = (c.re : ℂ) := by apply Complex.ext <;> simp [h0]
    have hn : ‖c‖ = c.re := by rw [hc, Complex.norm_real]; simp [abs_of_pos hre']
    rw [if_pos (show (plane u c).scalar > 0 from hre')]
    refine ⟨(Real.sqrt c.re : ℂ), ?_, ?_, ?_⟩
    · rw [plane_ofReal, hn]; rfl
    · rw [← Complex.ofReal_mul, Real.mul_self_sqrt hre'.le]; exact hc.symm
    · simpa using Real.sqrt_pos.mpr hre'
  · rw [if_neg hle]
    have h0 : c.im ≠ 0 := by
      intro h0; apply hle; rw [plane_vector_normSquared c hu, h0]; nlinarith
    have hlt : |c.re| < ‖c‖ := Complex.abs_re_lt_norm.mpr h0
    have hd : 0 < ‖c‖ + c.re := by linarith [neg_abs_le c.re]
    have hk : 0 < (1 / (1 + 1)) / (‖c‖ + c.re) := by positivity
    set k := Real.sqrt ((1 / (1 + 1)) / (‖c‖ + c.re)) with hkdef
    have hkk : k * k = (1 / (1 + 1)) / (‖c‖ + c.re) := Real.mul_self_sqrt hk.le
    have hk2 : k * k * (‖c‖ + c.re) * 2 = 1 := by rw [hkk]; field_simp; norm_num
    have hsq : ‖c‖ * ‖c‖ = c.re * c.re + c.im * c.im := by
      rw [← sq, ← Complex.normSq_eq_norm_sq, Complex.normSq_apply]
    refine ⟨⟨(‖c‖ + c.re) * k, c.im * k⟩, ?_, ?_, ?_⟩
    · simp only [plane_scalar, plane_vector, fsqrt_real]
      rw [← hkdef]
      clear_value k
      apply ext4 <;> simp only [plane_s, plane_x, plane_y, plane_z, fromParts_s, fromParts_x, fromParts_y,
        fromParts_z, Vec.mulS_data] <;> ring
    · apply Complex.ext
      · simp only [Complex.mul_re]
        linear_combination (k * k) * hsq + c.re * hk2
      · simp only [Complex.mul_im]
        linear_combination c.im * hk2
    · exact mul_pos hd (Real.sqrt_pos.mpr hk)


omit hu in
theorem real_or (c : ℂ) : c.im = 0 → c = (c.re : ℂ) := fun h => by apply Complex.ext <;> simp [h]

theorem plane_vector_norm_ne {c : ℂ} (h0 : c.im ≠ 0) : (plane u c).vector.norm ≠ 0 := by
  rw [plane_vector_norm c hu]; exact abs_ne_zero.mpr h0

theorem plane_cos : (plane u c).cos = plane u (Complex.cos c) := by
  have e : Complex.cos c = ⟨Real.cos c.re * Real.cosh c.im, -Real.sin c.re * Real.sinh c.im⟩ := by
    rw [Complex.cos_eq]
    apply Complex.ext <;>
      simp [← Complex.ofReal_cosh, ← Complex.ofReal_sinh, ← Complex.ofReal_cos, ← Complex.ofReal_sin]
  unfold Quat.cos
  simp only [beq_iff_eq]
  by_cases h0 : c.im = 0
  · rw [if_pos (by rw [plane_vector_norm c hu, h0, abs_zero]), plane_vector_norm c hu, e, h0]
    apply ext4 <;> simp
  · rw [if_neg (plane_vector_norm_ne hu h0), plane_vector_norm c hu, e, plane_vector,
      vec_div_abs u h0 _ (-Real.sin c.re * Real.sinh c.im)]
    · simp [plane]
    · simp only [plane_scalar, fsin_real, fsinh_real]; rw [mul_assoc, sinh_abs_mul]; ring

theorem plane_sin : (plane u c).sin = plane u (Complex.sin c) := by
  have e : Complex.sin c = ⟨Real.sin c.re * Real.cosh c.im, Real.cos c.re * Real.sinh c.im⟩ := by
    rw [Complex.sin_eq]
    apply Complex.ext <;>
      simp [← Complex.ofReal_cosh, ← Complex.ofReal_sinh, ← Complex.ofReal_cos, ← Complex.ofReal_sin]
  unfold Quat.sin
  simp only [beq_iff_eq]
  by_cases h0 : c.im = 0
  · rw [if_pos (by rw [plane_vector_norm c hu, h0, abs_zero]), plane_vector_norm c hu, e, h0]
    apply ext4 <;> simp
  · rw [if_neg (plane_vector_norm_ne hu h0), plane_vector_norm c hu, e, plane_vector,
      vec_div_abs u h0 _ (Real.cos c.re * Real.sinh c.im)]
    · simp [plane]
    · simp only [plane_scalar, fcos_real, fsinh_real]; rw [mul_assoc, sinh_abs_mul]; ring

omit hu in
theorem cosh_re_im (c : ℂ) :
    Complex.cosh c = ⟨Real.cosh c.re * Real.cos c.im, Real.sinh c.re * Real.sin c.im⟩ := by
  conv_lhs => rw [← Complex.re_add_im c]
  rw [Complex.cosh_add, Complex.cosh_mul_I, Complex.sinh_mul_I]
  apply Complex.ext <;>
    simp [← Complex.ofReal_cosh, ← Complex.ofReal_sinh, ← Complex.ofReal_cos, ← Complex.ofReal_sin]
omit hu in
theorem sinh_re_im (c : ℂ) :
    Complex.sinh c = ⟨Real.sinh c.re * Real.cos c.im, Real.cosh c.re * Real.sin c.im⟩ := by
  conv_lhs => rw [← Complex.re_add_im c]
  rw [Complex.sinh_add, Complex.cosh_mul_I, Complex.sinh_mul_I]
  apply Complex.ext <;>
    simp [← Complex.ofReal_cosh, ← Complex.ofReal_sinh, ← Complex.ofReal_cos, ← Complex.ofReal_sin]

theorem plane_cosh : (plane u c).cosh = plane u (Complex.cosh c) := by
  unfold Quat.cosh
  simp only [beq_iff_eq]
  by_cases h0 : c.im = 0
  · rw [if_pos (by rw [plane_vector_norm c hu, h0, abs_zero]), plane_vector_norm c hu, cosh_re_im, h0]
    apply ext4 <;> simp
  · rw [if_neg (plane_vector_norm_ne hu h0), plane_vector_norm c hu, cosh_re_im, plane_vector,
      vec_div_abs u h0 _ (Real.sinh c.re * Real.sin c.im)]
    · simp [plane]
    · simp only [plane_scalar, fsin_real, fsinh_real]; rw [mul_assoc, sin_abs_mul]; ring

theorem plane_sinh : (plane u c).sinh = plane u (Complex.sinh c) := by
  unfold Quat.sinh
  simp only [beq_iff_eq]
  by_cases h0 : c.im = 0
  · rw [if_pos (by rw [plane_vector_norm c hu, h0, abs_zero]), plane_vector_norm c hu, sinh_re_im, h0]
    apply ext4 <;> simp
  · rw [if_neg (plane_vector_norm_ne hu h0), plane_vector_norm c hu, sinh_re_im, plane_vector,
      vec_div_abs u h0 _ (Real.cosh c.re * Real.sin c.im)]
    · simp [plane]
    · simp only [plane_scalar, fsin_real, fcosh_real]; rw [mul_assoc, sin_abs_mul]; ring

omit hu in
theorem tan_re_im (c : ℂ) (h : c.im ≠ 0) :
    Complex.tan c = ⟨Real.cos c.re * Real.sin c.re / (Real.cos c.re ^ 2 + Real.sinh c.im ^ 2),
      Real.cosh c.im * Real.sinh c.im / (Real.cos c.re ^ 2 + Real.sinh c.im ^ 2)⟩ := by
  have hs : Real.sinh c.im ≠ 0 := by rwa [Ne, Real.sinh_eq_zero]
  have hD : 0 < Real.cos c.re ^ 2 + Real.sinh c.im ^ 2 := by positivity
  have h1 := Real.cosh_sq c.im
  have h2 := Real.sin_sq_add_cos_sq c.re
  rw [Complex.tan, Complex.cos_eq, Complex.sin_eq]
  rw [div_eq_iff]
  · apply Complex.ext <;>
      simp [← Complex.ofReal_cosh, ← Complex.ofReal_sinh, ← Complex.ofReal_cos, ← Complex.ofReal_sin] <;>
      field_simp <;> grind
  · intro h0
    have e1 := congrArg Complex.re h0
    have e2 := congrArg Complex.im h0
    simp [← Complex.ofReal_cosh, ← Complex.ofReal_sinh, ← Complex.ofReal_cos, ← Complex.ofReal_sin] at e1 e2
    have hch := Real.cosh_pos c.im
    rcases e1 with e1 | e1
    · rcases e2 with e2 | e2
      · nlinarith
      · exact h e2
    · exact hch.ne' e1

theorem plane_tan : (plane u c).tan = plane u (Complex.tan c) := by
  unfold Quat.tan
  simp only [beq_iff_eq]
  by_cases h0 : c.im = 0
  · rw [if_pos (by rw [plane_vector_norm c hu, h0, abs_zero])]
    conv_rhs => rw [real_or c h0, ← Complex.ofReal_tan, plane_ofReal]
    rfl
  · rw [if_neg (plane_vector_norm_ne hu h0), plane_vector_norm c hu, tan_re_im c h0, plane_vector]
    have hD : Real.cos c.re ^ 2 + Real.sinh c.im ^ 2 ≠ 0 := by
      have hs : Real.sinh c.im ≠ 0 := by rwa [Ne, Real.sinh_eq_zero]
      positivity
    have hss : Real.sinh |c.im| * Real.sinh |c.im| = Real.sinh c.im ^ 2 := by
      rcases abs_choice c.im with h | h <;> rw [h]
      · ring
      · rw [Real.sinh_neg]; ring
    simp only [plane_scalar, fsin_real, fcos_real, fsinh_real, fcosh_real, Real.cosh_abs, hss]
    rw [← sq (Real.cos c.re), ← div_div, vec_div_abs u h0 _
      (Real.cosh c.im * Real.sinh c.im / (Real.cos c.re ^ 2 + Real.sinh c.im ^ 2))]
    · simp [plane]
    · rw [div_mul_eq_mul_div, div_mul_eq_mul_div, mul_assoc, sinh_abs_mul, mul_assoc]

omit hu in
theorem tanh_re_im (c : ℂ) (h : Real.sinh c.re ^ 2 + Real.cos c.im ^ 2 ≠ 0) :
    Complex.tanh c = ⟨Real.cosh c.re * Real.sinh c.re / (Real.sinh c.re ^ 2 + Real.cos c.im ^ 2),
      Real.cos c.im * Real.sin c.im / (Real.sinh c.re ^ 2 + Real.cos c.im ^ 2)⟩ := by
  have h1 := Real.cosh_sq c.re
  have h2 := Real.sin_sq_add_cos_sq c.im
  rw [Complex.tanh, cosh_re_im, sinh_re_im]
  rw [div_eq_iff]
  · apply Complex.ext <;> simp <;> field_simp <;> grind
  · intro h0
    have e1 := congrArg Complex.re h0
    have e2 := congrArg Complex.im h0
    simp at e1 e2
    have hch := Real.cosh_pos c.re
    apply h
    rcases e1 with e1 | e1
    · exact absurd e1 hch.ne'
    · rcases e2 with e2 | e2
      · rw [e1, e2]; simp
      · nlinarith

/-- `tanh` has the complex value wherever its denominator `|cosh|²` is not zero. -/
theorem plane_tanh (h : Complex.cosh c ≠ 0) : (plane u c).tanh = plane u (Complex.tanh c) := by
  unfold Quat.tanh
  simp only [beq_iff_eq]
  by_cases h0 : c.im = 0
  · rw [if_pos (by rw [plane_vector_norm c hu, h0, abs_zero])]
    conv_rhs => rw [real_or c h0, ← Complex.ofReal_tanh, plane_ofReal]
    rfl
  · have hD : Real.sinh c.re ^ 2 + Real.cos c.im ^ 2 ≠ 0 := by
      intro hD
      apply h
      have a1 : Real.sinh c.re = 0 := by nlinarith [sq_nonneg (Real.sinh c.re), sq_nonneg (Real.cos c.im)]
      have a2 : Real.cos c.im = 0 := by nlinarith [sq_nonneg (Real.sinh c.re), sq_nonneg (Real.cos c.im)]
      rw [cosh_re_im, a1, a2]; apply Complex.ext <;> simp
    rw [if_neg (plane_vector_norm_ne hu h0), plane_vector_norm c hu, tanh_re_im c hD, plane_vector]
    simp only [plane_scalar, fsin_real, fcos_real, fsinh_real, fcosh_real, Real.cos_abs]
    rw [← sq (Real.cos c.im), ← sq (Real.sinh c.re), ← div_div, vec_div_abs u h0 _
      (Real.cos c.im * Real.sin c.im / (Real.sinh c.re ^ 2 + Real.cos c.im ^ 2))]
    · simp [plane]
    · rw [div_mul_eq_mul_div, div_mul_eq_mul_div, mul_assoc, sin_abs_mul, mul_assoc]

end
end Quat
end Cgl

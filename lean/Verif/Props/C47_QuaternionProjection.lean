import Verif.Lemmas.QuatPlane

/-!
# C47 - quaternion projection, rejection and argument
-/

namespace Cgl
open Quat

section
variable {K : Type*} [Field K] (q r : Quat K)

/-- The projection is a multiple of `r` ... -/
theorem C47_project_parallel : ∃ k : K, q.project r = r * k := ⟨_, rfl⟩
/-- ... and the rejection is the rest ... -/
theorem C47_decompose : q.project r + q.reject r = q := by
  apply ext4 <;> simp [reject]
/-- ... which is orthogonal to `r`. -/
theorem C47_reject_orthogonal (hr : r.normSquared ≠ 0) : (q.reject r).dot r = 0 := by
  have hr' : r.s ^ 2 + r.x ^ 2 + r.y ^ 2 + r.z ^ 2 ≠ 0 := by
    rw [normSquared_eq] at hr; simpa only [sq] using hr
  simp only [dot_eq, reject, project, normSquared_eq, sub_s, sub_x, sub_y, sub_z, mulS_s, mulS_x, mulS_y, mulS_z]
  field_simp
  ring
/-- The two properties determine the projection. -/
theorem C47_project_unique (hr : r.normSquared ≠ 0) (k : K) (h : (q - r * k).dot r = 0) : q.project r = r * k := by
  have hk : q.dot r = k * r.normSquared := by
    simp only [dot_eq, normSquared_eq, sub_s, sub_x, sub_y, sub_z, mulS_s, mulS_x, mulS_y, mulS_z] at h ⊢
    linear_combination h
  unfold project
  rw [hk, mul_div_assoc, div_self hr, mul_one]
theorem C47_project_self (hr : r.normSquared ≠ 0) (k : K) : (r * k).project r = r * k := by
  apply C47_project_unique _ _ hr; simp [dot_eq]
end

/-- `arg(q)` is the angle between `q` and the positive real axis, as long as the scalar part is larger than
the tolerance or is exactly zero. Missing: the scalar parts in between, for which the code returns 90°. -/
theorem C47_arg_partial {eps : ℝ} (q : Quat ℝ) (hq : q ≠ 0) (h : q.scalar = 0 ∨ eps * eps < q.scalar * q.scalar) :
    q.arg eps = Real.arccos (q.scalar / q.norm) := by
  have hc : (⟨q.s, q.vector.norm⟩ : ℂ) ≠ 0 := by
    intro h0
    apply hq
    have h1 := congrArg Complex.re h0
    have h2 := congrArg Complex.im h0
    simp only [Complex.zero_re, Complex.zero_im] at h1 h2
    rw [eta_parts q, (Vec.norm_eq_zero _).mp h2, h1]; apply ext4 <;> simp
  have hn : ‖(⟨q.s, q.vector.norm⟩ : ℂ)‖ = q.norm := by
    rw [Complex.norm_def, norm_def]
    congr 1
    rw [Complex.normSq_apply]; simp only
    rw [Vec.norm_mul_norm, normSquared_eq, vector_normSquared]; ring
  unfold Quat.arg
  rcases h with h | h
  · rw [if_pos (by rw [h, mul_zero]; exact mul_self_nonneg eps), h, zero_div, Real.arccos_zero,
      ffracPi2_real]
  · rw [if_neg (not_le.mpr h)]
    simp only [fatan2_real, scalar_eq]
    rw [Complex.arg_of_im_nonneg_of_ne_zero (Vec.norm_nonneg _) hc, hn]

theorem C47_arg_range {eps : ℝ} (q : Quat ℝ) : 0 ≤ q.arg eps ∧ q.arg eps ≤ Real.pi := by
  unfold Quat.arg
  split_ifs
  · rw [ffracPi2_real]
    constructor <;> linarith [Real.pi_pos]
  · exact ⟨Complex.arg_nonneg_iff.mpr (Vec.norm_nonneg _), Complex.arg_le_pi _⟩

/-- the property: the angle to the real axis, for every non-zero quaternion -/
def Spec.ArgIsAngle (eps : ℝ) : Prop := ∀ q : Quat ℝ, q ≠ 0 → q.arg eps = Real.arccos (q.scalar / q.norm)

/-- With a positive tolerance it fails on small quaternions: the argument of the real number `eps` is 90°, not
0. -/
theorem C47_arg_fails {eps : ℝ} (heps : 0 < eps) : ¬ Spec.ArgIsAngle eps := by
  intro h
  have h1 := h (fromReal eps) (by intro h0; have := congrArg Quat.s h0; simp at this; linarith)
  have hn : (fromReal eps).norm = eps := by
    rw [norm_def, normSquared_eq]; simp [Real.sqrt_mul_self heps.le]
  rw [hn] at h1
  unfold Quat.arg at h1
  rw [if_pos (by simp)] at h1
  simp only [scalar_eq, fromReal_s, div_self heps.ne', Real.arccos_one] at h1
  rw [ffracPi2_real] at h1
  linarith [Real.pi_pos]
/-- with a zero tolerance it holds of every non-zero quaternion -/
theorem C47_arg_exact : Spec.ArgIsAngle 0 := by
  intro q hq
  apply C47_arg_partial q hq
  by_cases h : q.scalar = 0
  · exact Or.inl h
  · right; rw [mul_zero]; exact mul_self_pos.mpr h

example : (new 1 1 0 0 : Quat ℚ).project (new 2 0 0 0) = new 1 0 0 0 := by
  apply ext4 <;> simp [project, dot_eq, normSquared_eq]

end Cgl

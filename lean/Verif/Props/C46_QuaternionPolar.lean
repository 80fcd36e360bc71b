import Verif.Lemmas.QuatPlane

/-!
# C46 - quaternion polar decomposition

The round trip claimed by the property is false of the code: `polar_decomposition` returns half the angle that
`from_polar_decomposition` expects, and takes the absolute value of the scalar part.
-/

namespace Cgl
open Quat

theorem polar_of_vector {q : Quat ℝ} (hv : q.vector ≠ 0) : q.polarDecomposition =
    (q.norm, ⟨Complex.arg ⟨|q.s|, q.vector.norm⟩⟩, some ⟨q.vector.normalize⟩) := by
  have hq : q ≠ 0 := by rintro rfl; exact hv (Vec.ext3 rfl rfl rfl)
  have hn := norm_pos hq
  have h1 : Unit'.tryFromValueWithNorm q (0 : ℝ) = some (⟨q.normalize⟩, q.norm) := by
    unfold Unit'.tryFromValueWithNorm
    dsimp only
    rw [if_pos (by rw [mul_zero]; exact normSquared_pos hq)]; rfl
  have h2 : Unit'.tryFromValue q.vector (0 : ℝ) = some ⟨q.vector.normalize⟩ := by
    unfold Unit'.tryFromValue Unit'.tryFromValueWithNorm
    dsimp only
    rw [if_pos (by rw [mul_zero]; exact Vec.normSquared_pos hv)]; rfl
  unfold polarDecomposition
  rw [h1]; dsimp only; rw [h2]; dsimp only
  have e1 : sabs q.normalize.scalar = |q.s| * (1 / q.norm) := by
    rw [normalize_def]; simp [Vec.sabs_real, abs_mul, abs_of_pos hn]
  have e2 : q.normalize.vector.norm = q.vector.norm * (1 / q.norm) := by
    have : q.normalize.vector = q.vector * (1 / q.norm) := by
      rw [normalize_def]; apply Vec.ext3 <;> simp
    rw [this, Vec.norm_mulS, abs_of_pos (by positivity)]
  rw [e1, e2]
  have e3 : (⟨|q.s| * (1 / q.norm), q.vector.norm * (1 / q.norm)⟩ : ℂ) =
      ((1 / q.norm : ℝ) : ℂ) * ⟨|q.s|, q.vector.norm⟩ := by
    apply Complex.ext <;> simp <;> ring
  simp only [fatan2_real]
  rw [e3, Complex.arg_real_mul _ (by positivity)]

/-- The scale is `|q|`, for every quaternion. -/
theorem C46_scale (q : Quat ℝ) : q.polarDecomposition.1 = q.norm := by
  by_cases hv : q.vector = 0
  · unfold polarDecomposition Unit'.tryFromValueWithNorm
    dsimp only
    by_cases hq : q = 0
    · subst hq
      have : ¬ Normed.normSquared (0 : Quat ℝ) > (0 : ℝ) * 0 := by
        change ¬ (0 : Quat ℝ).normSquared > (0 : ℝ) * 0; simp [normSquared_eq]
      rw [if_neg this, norm_eq_zero.mpr rfl]
    · rw [if_pos (by rw [mul_zero]; exact normSquared_pos hq)]
      dsimp only
      have h2 : Unit'.tryFromValue q.vector (0 : ℝ) = none := by
        unfold Unit'.tryFromValue Unit'.tryFromValueWithNorm
        have : ¬ Normed.normSquared q.vector > (0 : ℝ) * 0 := by
          change ¬ q.vector.normSquared > (0 : ℝ) * 0
          rw [(Vec.normSquared_eq_zero _).mpr hv]; simp
        dsimp only
        rw [if_neg this]; rfl
      rw [h2]; rfl
  · rw [polar_of_vector hv]

/-- The axis is the direction of the vector part; there is none, and the angle is zero, for a real quaternion. -/
theorem C46_axis (q : Quat ℝ) : (q.vector ≠ 0 → q.polarDecomposition.2.2 = some ⟨q.vector.normalize⟩) ∧
    (q.vector = 0 → q.polarDecomposition.2 = (⟨0⟩, none)) := by
  constructor
  · intro hv; rw [polar_of_vector hv]
  · intro hv
    have h2 : Unit'.tryFromValue q.vector (0 : ℝ) = none := by
      unfold Unit'.tryFromValue Unit'.tryFromValueWithNorm
      have : ¬ Normed.normSquared q.vector > (0 : ℝ) * 0 := by
        change ¬ q.vector.normSquared > (0 : ℝ) * 0
        rw [(Vec.normSquared_eq_zero _).mpr hv]; simp
      dsimp only
      rw [if_neg this]; rfl
    unfold polarDecomposition
    rw [h2]
    split <;> rfl

private theorem norm_pair (q : Quat ℝ) : ‖(⟨|q.s|, q.vector.norm⟩ : ℂ)‖ = q.norm := by
  rw [Complex.norm_def, norm_def]
  congr 1
  rw [Complex.normSq_apply]; simp only
  rw [abs_mul_abs_self, Vec.norm_mul_norm, normSquared_eq, vector_normSquared]; ring

/-- What the code does compute: feeding *twice* the returned angle back gives the quaternion with the absolute
value of the scalar part, so it gives back `q` when the scalar part is not negative. Missing against the
property: the factor two, and the sign of the scalar part. -/
theorem C46_round_trip_partial (q : Quat ℝ) (hv : q.vector ≠ 0) :
    fromPolarDecomposition q.polarDecomposition.1 ⟨2 * q.polarDecomposition.2.1.val⟩ ⟨q.vector.normalize⟩ =
      fromParts |q.scalar| q.vector := by
  rw [polar_of_vector hv]
  unfold fromPolarDecomposition
  have h1 : ‖(⟨|q.s|, q.vector.norm⟩ : ℂ)‖ * Real.cos (Complex.arg ⟨|q.s|, q.vector.norm⟩) = |q.s| :=
    Complex.norm_mul_cos_arg _
  have h2 : ‖(⟨|q.s|, q.vector.norm⟩ : ℂ)‖ * Real.sin (Complex.arg ⟨|q.s|, q.vector.norm⟩) = q.vector.norm :=
    Complex.norm_mul_sin_arg _
  rw [norm_pair] at h1 h2
  have hd : ((⟨2 * Complex.arg ⟨|q.s|, q.vector.norm⟩⟩ : Radians ℝ) / (1 + 1 : ℝ)).val =
      Complex.arg ⟨|q.s|, q.vector.norm⟩ := by simp [one_add_one_eq_two]
  simp only
  rw [hd]
  simp only [fcos_real, fsin_real, scalar_eq]
  have hm := Vec.normalize_mul_norm hv
  rw [show q.vector.normalize * Real.sin (Complex.arg ⟨|q.s|, q.vector.norm⟩) * q.norm = q.vector by
    conv_rhs => rw [← hm, ← h2]
    apply Vec.ext3 <;> simp only [Vec.mulS_data] <;> ring]
  rw [mul_comm, h1]

theorem C46_round_trip_nonneg_partial (q : Quat ℝ) (hv : q.vector ≠ 0) (hs : 0 ≤ q.scalar) :
    fromPolarDecomposition q.polarDecomposition.1 ⟨2 * q.polarDecomposition.2.1.val⟩ ⟨q.vector.normalize⟩ = q := by
  rw [C46_round_trip_partial q hv, abs_of_nonneg hs]; exact (eta_parts q).symm

/-- the property: rebuilding from the decomposition gives back `q` -/
def Spec.PolarRoundTrip (q : Quat ℝ) : Prop :=
  ∃ axis, q.polarDecomposition.2.2 = some axis ∧
    fromPolarDecomposition q.polarDecomposition.1 q.polarDecomposition.2.1 axis = q

/-- It is false of every quaternion with a vector part. -/
theorem C46_round_trip_fails (q : Quat ℝ) (hv : q.vector ≠ 0) : ¬ Spec.PolarRoundTrip q := by
  rintro ⟨axis, haxis, h⟩
  rw [polar_of_vector hv] at haxis h
  have hs := congrArg Quat.s h
  have hnv := Vec.norm_pos hv
  have h1 : ‖(⟨|q.s|, q.vector.norm⟩ : ℂ)‖ * Real.cos (Complex.arg ⟨|q.s|, q.vector.norm⟩) = |q.s| :=
    Complex.norm_mul_cos_arg _
  have h2 : ‖(⟨|q.s|, q.vector.norm⟩ : ℂ)‖ * Real.sin (Complex.arg ⟨|q.s|, q.vector.norm⟩) = q.vector.norm :=
    Complex.norm_mul_sin_arg _
  rw [norm_pair] at h1 h2
  have hpi : |Complex.arg ⟨|q.s|, q.vector.norm⟩| ≤ Real.pi / 2 := by
    rw [Complex.abs_arg_le_pi_div_two_iff]; simp
  have h0 : 0 ≤ Complex.arg ⟨|q.s|, q.vector.norm⟩ := Complex.arg_nonneg_iff.mpr hnv.le
  set phi := Complex.arg ⟨|q.s|, q.vector.norm⟩
  have hq : 0 < q.norm := by
    rcases lt_or_eq_of_le q.norm_nonneg with h | h
    · exact h
    · rw [← h, zero_mul] at h2; linarith
  have hphi : 0 < phi := by
    rcases lt_or_eq_of_le h0 with h | h
    · exact h
    · rw [← h, Real.sin_zero, mul_zero] at h2; linarith
  rw [abs_of_pos hphi] at hpi
  simp only [fromPolarDecomposition, fromParts_s, fcos_real] at hs
  have hd : ((⟨phi⟩ : Radians ℝ) / (1 + 1 : ℝ)).val = phi / 2 := by simp [one_add_one_eq_two]
  rw [hd] at hs
  have hlt : Real.cos phi < Real.cos (phi / 2) :=
    Real.cos_lt_cos_of_nonneg_of_le_pi_div_two (by linarith) hpi (by linarith)
  have habs : |q.s| < |q.s| := by
    calc |q.s| = q.norm * Real.cos phi := h1.symm
      _ < q.norm * Real.cos (phi / 2) := mul_lt_mul_of_pos_left hlt hq
      _ = q.s := by rw [← hs]; ring
      _ ≤ |q.s| := le_abs_self _
  exact lt_irrefl _ habs

/-- a quaternion with a vector part -/
example : (new 1 0 0 1 : Quat ℝ).vector ≠ 0 := by
  intro h; have := congrArg (fun v => v.data 2) h; simp at this

end Cgl

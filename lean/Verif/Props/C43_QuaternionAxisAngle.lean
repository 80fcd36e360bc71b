import Verif.Props.C42_QuaternionFromMatrix

/-!
# C43 - axis-angle quaternions (angles over the reals)
-/

namespace Cgl
open Quat

section
variable (a : Unit' (Vec ℝ 3)) (t u : Radians ℝ)

private theorem half_trig (t : ℝ) : Real.cos t = 1 - 2 * Real.sin (t / 2) ^ 2 ∧
    Real.sin t = 2 * Real.sin (t / 2) * Real.cos (t / 2) ∧
    Real.sin (t / 2) ^ 2 + Real.cos (t / 2) ^ 2 = 1 := by
  have h1 := Real.cos_two_mul (t / 2)
  have h2 := Real.sin_two_mul (t / 2)
  have h3 := Real.sin_sq_add_cos_sq (t / 2)
  rw [show 2 * (t / 2) = t by ring] at h1 h2
  exact ⟨by linarith, h2, h3⟩

/-- `cos(t/2) + sin(t/2) a` -/
theorem C43_formula : fromAxisAngle a t = fromReal (Real.cos (t.val / 2)) +
    fromPure a.value * Real.sin (t.val / 2) := by
  have : t.val * (1 / (1 + 1)) = t.val / 2 := by ring
  apply ext4 <;> simp [fromAxisAngle, one_add_one_eq_two, div_eq_mul_inv]

variable (ha : a.value.normSquared = 1)
include ha

theorem C43_unit : (fromAxisAngle a t).norm = 1 := by
  rw [norm_eq_one_iff, C43_formula, normSquared_eq]
  simp only [Vec.normSquared, Vec.dot3] at ha
  have := Real.sin_sq_add_cos_sq (t.val / 2)
  simp
  linear_combination (Real.sin (t.val / 2)) ^ 2 * ha + this

/-- Rotating the axis leaves it fixed. -/
theorem C43_fixes_axis : (fromAxisAngle a t) * fromPure a.value * (fromAxisAngle a t).conjugate =
    fromPure a.value := by
  rw [C43_formula]
  simp only [Vec.normSquared, Vec.dot3] at ha
  have := Real.sin_sq_add_cos_sq (t.val / 2)
  apply ext4 <;> simp <;> grind

/-- Rotations about one axis compose by adding the angles. -/
theorem C43_compose : fromAxisAngle a t * fromAxisAngle a u = fromAxisAngle a (t + u) := by
  simp only [Vec.normSquared, Vec.dot3] at ha
  have e : (t + u).val / 2 = t.val / 2 + u.val / 2 := by simp; ring
  rw [C43_formula, C43_formula, C43_formula, e, Real.sin_add, Real.cos_add]
  apply ext4 <;> simp <;> grind

/-- The matrix is the axis-angle matrix. -/
theorem C43_to_matrix : (fromAxisAngle a t).toMatrix = Mat.fromAxisAngle3 a t := by
  have hn := norm_eq_one_iff.mp (C43_unit a t ha)
  obtain ⟨h1, h2, h3⟩ := half_trig t.val
  simp only [Vec.normSquared, Vec.dot3] at ha
  apply Mat.ext3 <;> simp only [toMatrix, hn] <;>
    simp [C43_formula, Mat.fromAxisAngle3, h1, h2] <;> grind

/-- `from_matrix` of the axis-angle matrix is the axis-angle quaternion up to sign. -/
theorem C43_from_matrix : fromMatrix (Mat.fromAxisAngle3 a t) = fromAxisAngle a t ∨
    fromMatrix (Mat.fromAxisAngle3 a t) = -fromAxisAngle a t := by
  rw [← C43_to_matrix a t ha]; exact C42_round_trip _ (C43_unit a t ha)

end

theorem C43_zero (a : Unit' (Vec ℝ 3)) : fromAxisAngle a ⟨0⟩ = identity := by
  rw [C43_formula]; apply ext4 <;> simp
/-- negating the angle or the axis gives the conjugate -/
theorem C43_neg (a : Unit' (Vec ℝ 3)) (t : Radians ℝ) :
    fromAxisAngle a (-t) = (fromAxisAngle a t).conjugate ∧
    fromAxisAngle ⟨-a.value⟩ t = (fromAxisAngle a t).conjugate := by
  simp only [C43_formula]
  constructor <;> apply ext4 <;> simp [neg_div]
/-- a full turn changes the sign of the quaternion but not the rotation -/
theorem C43_full_turn (a : Unit' (Vec ℝ 3)) (t : Radians ℝ) :
    fromAxisAngle a ⟨t.val + 2 * Real.pi⟩ = -fromAxisAngle a t := by
  rw [C43_formula, C43_formula, show (⟨t.val + 2 * Real.pi⟩ : Radians ℝ).val / 2 = t.val / 2 + Real.pi by
    simp; ring, Real.sin_add_pi, Real.cos_add_pi]
  apply ext4 <;> simp

/-- a quarter turn about the x axis sends y to z -/
example : (fromAxisAngle (⟨Vec.unitX3⟩ : Unit' (Vec ℝ 3)) ⟨Real.pi / 2⟩).toMatrix * (Vec.unitY3 : Vec ℝ 3) =
    Vec.unitZ3 := by
  rw [C43_to_matrix _ _ (by simp [Vec.normSquared, Vec.dot3, Vec.unitX3]), Mat.mulVec3]
  apply Vec.ext3 <;> simp [Mat.fromAxisAngle3, Vec.unitX3, Vec.unitY3, Vec.unitZ3]

end Cgl

import Verif.Props.C23_Affine
import Verif.Props.C17_Determinant

/-! # C26 - rotation matrices (angles over the reals) -/

namespace Cgl
open Mat

/-- `A` is a proper rotation: its transpose is its inverse and it preserves orientation. -/
structure Spec.IsRotation {n : ℕ} (A : Mat ℝ n n) : Prop where
  transpose_mul : A.transpose * A = identity
  mul_transpose : A * A.transpose = identity
  det_one : Spec.leibniz A = 1

theorem Spec.IsRotation.of_transpose_mul {n : ℕ} {A : Mat ℝ n n} (h : A.transpose * A = identity)
    (hd : Spec.leibniz A = 1) : Spec.IsRotation A := ⟨h, mul_comm_of_identity h, hd⟩

private theorem sc (t : ℝ) : Real.sin t ^ 2 + Real.cos t ^ 2 = 1 := Real.sin_sq_add_cos_sq t

/-! ### the plane -/

theorem C26_angle2_rotation (t : Radians ℝ) : Spec.IsRotation (fromAngle2 t) := by
  have h := sc t.val
  apply Spec.IsRotation.of_transpose_mul
  · apply ext2 <;> simp [mul_data, Fin.sum_univ_two, fromAngle2] <;> grind
  · rw [← C17_det2]; simp [determinant2, fromAngle2]; grind

theorem C26_angle2_compose (s t : Radians ℝ) : fromAngle2 s * fromAngle2 t = fromAngle2 (s + t) := by
  apply ext2 <;> simp [mul_data, Fin.sum_univ_two, fromAngle2, Real.sin_add, Real.cos_add] <;> ring

theorem C26_angle2_zero : fromAngle2 (⟨0⟩ : Radians ℝ) = identity := by
  apply ext2 <;> simp [fromAngle2]

theorem C26_angle2_neg (t : Radians ℝ) : fromAngle2 (-t) = (fromAngle2 t).transpose := by
  apply ext2 <;> simp [fromAngle2]

/-- counter-clockwise: the point at angle `s` goes to the point at angle `s + t` -/
theorem C26_angle2_action (s t : ℝ) : fromAngle2 ⟨t⟩ * Vec.new2 (Real.cos s) (Real.sin s) =
    Vec.new2 (Real.cos (s + t)) (Real.sin (s + t)) := by
  rw [mulVec2]; apply Vec.ext2 <;> simp [fromAngle2, Real.sin_add, Real.cos_add] <;> ring

/-! ### axis and angle -/

section AxisAngle
variable (a : Unit' (Vec ℝ 3)) (t : Radians ℝ)

/-- Rodrigues' formula -/
theorem C26_rodrigues (v : Vec ℝ 3) : fromAxisAngle3 a t * v =
    v * Real.cos t.val + a.value.cross v * Real.sin t.val +
      a.value * (a.value.dot v * (1 - Real.cos t.val)) := by
  rw [mulVec3]; apply Vec.ext3 <;> simp [fromAxisAngle3, Vec.dot3, Vec.cross] <;> ring

variable {a} (ha : a.value.dot a.value = 1)
include ha

theorem C26_axis_angle_rotation : Spec.IsRotation (fromAxisAngle3 a t) := by
  have h := sc t.val
  rw [Vec.dot3] at ha
  apply Spec.IsRotation.of_transpose_mul
  · apply ext3 <;> simp [mul_data, Fin.sum_univ_three, fromAxisAngle3] <;> grind
  · rw [← C17_det3]; simp [determinant3, fromAxisAngle3]; grind

theorem C26_axis_angle_compose (s : Radians ℝ) :
    fromAxisAngle3 a s * fromAxisAngle3 a t = fromAxisAngle3 a (s + t) := by
  rw [Vec.dot3] at ha
  apply ext3 <;> simp [mul_data, Fin.sum_univ_three, fromAxisAngle3, Real.sin_add, Real.cos_add] <;> grind

theorem C26_axis_angle_fixes_axis : fromAxisAngle3 a t * a.value = a.value := by
  rw [C26_rodrigues, ha]; apply Vec.ext3 <;> simp [Vec.cross] <;> ring

theorem C26_axis_angle_trace : (fromAxisAngle3 a t).trace = 1 + 2 * Real.cos t.val := by
  rw [Vec.dot3] at ha
  rw [trace_eq_sum]; simp [Fin.sum_univ_three, fromAxisAngle3]
  linear_combination (1 - Real.cos t.val) * ha

end AxisAngle

theorem C26_axis_angle_zero (a : Unit' (Vec ℝ 3)) : fromAxisAngle3 a ⟨0⟩ = identity := by
  apply ext3 <;> simp [fromAxisAngle3]

theorem C26_axis_angle_neg (a : Unit' (Vec ℝ 3)) (t : Radians ℝ) :
    fromAxisAngle3 a (-t) = (fromAxisAngle3 a t).transpose := by
  apply ext3 <;> simp [fromAxisAngle3] <;> ring

/-- turning about the opposite axis is turning the other way -/
theorem C26_axis_angle_opposite_axis (a : Unit' (Vec ℝ 3)) (t : Radians ℝ) :
    fromAxisAngle3 ⟨-a.value⟩ t = fromAxisAngle3 a (-t) := by
  apply ext3 <;> simp [fromAxisAngle3]

/-! ### the coordinate axes -/

theorem C26_angle_x (t : Radians ℝ) : fromAngleX3 t = fromAxisAngle3 ⟨Vec.unitX3⟩ t := by
  apply ext3 <;> simp [fromAngleX3, fromAxisAngle3, Vec.unitX3]
theorem C26_angle_y (t : Radians ℝ) : fromAngleY3 t = fromAxisAngle3 ⟨Vec.unitY3⟩ t := by
  apply ext3 <;> simp [fromAngleY3, fromAxisAngle3, Vec.unitY3]
theorem C26_angle_z (t : Radians ℝ) : fromAngleZ3 t = fromAxisAngle3 ⟨Vec.unitZ3⟩ t := by
  apply ext3 <;> simp [fromAngleZ3, fromAxisAngle3, Vec.unitZ3]

private theorem unitX : (Vec.unitX3 : Vec ℝ 3).dot Vec.unitX3 = 1 := by simp [Vec.dot3, Vec.unitX3]
private theorem unitY : (Vec.unitY3 : Vec ℝ 3).dot Vec.unitY3 = 1 := by simp [Vec.dot3, Vec.unitY3]
private theorem unitZ : (Vec.unitZ3 : Vec ℝ 3).dot Vec.unitZ3 = 1 := by simp [Vec.dot3, Vec.unitZ3]

theorem C26_angle_x_rotation (t : Radians ℝ) : Spec.IsRotation (fromAngleX3 t) := by
  rw [C26_angle_x]; exact C26_axis_angle_rotation t unitX
theorem C26_angle_y_rotation (t : Radians ℝ) : Spec.IsRotation (fromAngleY3 t) := by
  rw [C26_angle_y]; exact C26_axis_angle_rotation t unitY
theorem C26_angle_z_rotation (t : Radians ℝ) : Spec.IsRotation (fromAngleZ3 t) := by
  rw [C26_angle_z]; exact C26_axis_angle_rotation t unitZ

theorem C26_angle_x_compose (s t : Radians ℝ) : fromAngleX3 s * fromAngleX3 t = fromAngleX3 (s + t) := by
  simp only [C26_angle_x]; exact C26_axis_angle_compose t unitX s
theorem C26_angle_y_compose (s t : Radians ℝ) : fromAngleY3 s * fromAngleY3 t = fromAngleY3 (s + t) := by
  simp only [C26_angle_y]; exact C26_axis_angle_compose t unitY s
theorem C26_angle_z_compose (s t : Radians ℝ) : fromAngleZ3 s * fromAngleZ3 t = fromAngleZ3 (s + t) := by
  simp only [C26_angle_z]; exact C26_axis_angle_compose t unitZ s

/-- handedness: a quarter turn about z sends x to y, about x sends y to z, about y sends z to x -/
theorem C26_quarter_turns :
    fromAngleZ3 ⟨Real.pi / 2⟩ * (Vec.unitX3 : Vec ℝ 3) = Vec.unitY3 ∧
    fromAngleX3 ⟨Real.pi / 2⟩ * (Vec.unitY3 : Vec ℝ 3) = Vec.unitZ3 ∧
    fromAngleY3 ⟨Real.pi / 2⟩ * (Vec.unitZ3 : Vec ℝ 3) = Vec.unitX3 := by
  refine ⟨?_, ?_, ?_⟩ <;> rw [mulVec3] <;> apply Vec.ext3 <;>
    simp [fromAngleX3, fromAngleY3, fromAngleZ3, Vec.unitX3, Vec.unitY3, Vec.unitZ3]

/-! ### the affine versions -/

theorem C26_affine_angle2_rotation (t : Radians ℝ) : Spec.IsRotation (fromAffineAngle3 t) := by
  have e : fromAffineAngle3 t = fromAngleZ3 t := rfl
  rw [e]; exact C26_angle_z_rotation t

theorem C26_affine_axis_angle_rotation {a : Unit' (Vec ℝ 3)} (ha : a.value.dot a.value = 1)
    (t : Radians ℝ) : Spec.IsRotation (fromAffineAxisAngle4 a t) := by
  have h := sc t.val
  rw [Vec.dot3] at ha
  apply Spec.IsRotation.of_transpose_mul
  · apply ext4 <;> simp [mul_data, Fin.sum_univ_four, fromAffineAxisAngle4] <;> grind
  · rw [← C17_det4]; simp [determinant4, fromAffineAxisAngle4]; grind

theorem C26_affine_axis_angle_compose {a : Unit' (Vec ℝ 3)} (ha : a.value.dot a.value = 1)
    (s t : Radians ℝ) :
    fromAffineAxisAngle4 a s * fromAffineAxisAngle4 a t = fromAffineAxisAngle4 a (s + t) := by
  apply eq_of_mul_extend; intro v w
  rw [mul_mulVec]
  have h := fun t v w => C23_axis_angle a t v w
  rw [h, h, h, ← mul_mulVec, C26_axis_angle_compose t ha s]

theorem C26_affine_angle_xyz (t : Radians ℝ) :
    fromAffineAngleX4 t = fromAffineAxisAngle4 ⟨Vec.unitX3⟩ t ∧
    fromAffineAngleY4 t = fromAffineAxisAngle4 ⟨Vec.unitY3⟩ t ∧
    fromAffineAngleZ4 t = fromAffineAxisAngle4 ⟨Vec.unitZ3⟩ t := by
  refine ⟨?_, ?_, ?_⟩ <;> apply ext4 <;>
    simp [fromAffineAngleX4, fromAffineAngleY4, fromAffineAngleZ4, fromAffineAxisAngle4, Vec.unitX3,
      Vec.unitY3, Vec.unitZ3]

example : (Vec.new3 (2/3) (1/3) (2/3) : Vec ℝ 3).dot (Vec.new3 (2/3) (1/3) (2/3)) = 1 := by
  rw [Vec.dot3]; simp; norm_num

end Cgl

import Verif.Lemmas.Affine

/-! # C23 - affine matrix constructors

A point `p` is used as the homogeneous vector `p.to_homogeneous()`, a vector `v` as
`v.extend(0)`. -/

namespace Cgl
open Mat

variable {S : Type*} [CommRing S] {n : ℕ}

private theorem toHom (p : Pt S n) : p.toHomogeneous = p.coords.extend 1 := rfl

/-! ### translations -/

theorem C23_translation_point (d : Vec S n) (p : Pt S n) :
    fromAffineTranslation d * p.toHomogeneous = (p + d).toHomogeneous := by
  rw [toHom, fromAffineTranslation_mul, toHom]; congr 1; ext i; simp

theorem C23_translation_vector (d v : Vec S n) :
    fromAffineTranslation d * v.extend 0 = v.extend 0 := by
  rw [fromAffineTranslation_mul]; congr 1; ext i; simp

theorem C23_translation_compose (d e : Vec S n) :
    fromAffineTranslation d * fromAffineTranslation e = fromAffineTranslation (d + e) := by
  apply eq_of_mul_extend; intro v w
  rw [mul_mulVec]; simp only [fromAffineTranslation_mul]
  congr 1; ext i; simp; ring

theorem C23_translation_zero : fromAffineTranslation (0 : Vec S n) = identity := by
  apply eq_of_mul_extend; intro v w
  rw [fromAffineTranslation_mul, identity_mulVec]; congr 1; ext i; simp

theorem C23_translation_inverse (d : Vec S n) :
    fromAffineTranslation d * fromAffineTranslation (-d) = identity := by
  rw [C23_translation_compose, ← C23_translation_zero]; congr 1; ext i; simp

/-! ### scales -/

theorem C23_nonuniform_scale_point (s : Vec S n) (p : Pt S n) :
    fromAffineNonuniformScale s * p.toHomogeneous = (Pt.mk (s.componentMul p.coords)).toHomogeneous :=
  fromAffineNonuniformScale_mul s p.coords 1

theorem C23_nonuniform_scale_vector (s v : Vec S n) :
    fromAffineNonuniformScale s * v.extend 0 = (s.componentMul v).extend 0 :=
  fromAffineNonuniformScale_mul s v 0

theorem C23_scale_point (k : S) (p : Pt S n) :
    (fromAffineScale k : Mat S (n + 1) (n + 1)) * p.toHomogeneous = (p * k).toHomogeneous := by
  rw [fromAffineScale_eq, C23_nonuniform_scale_point]; congr 1; apply Pt.ext_data; intro i; simp [mul_comm]

theorem C23_scale_vector (k : S) (v : Vec S n) :
    (fromAffineScale k : Mat S (n + 1) (n + 1)) * v.extend 0 = (v * k).extend 0 := by
  rw [fromAffineScale_eq, C23_nonuniform_scale_vector]; congr 1; ext i; simp [mul_comm]

theorem C23_scale_compose (s t : Vec S n) :
    fromAffineNonuniformScale s * fromAffineNonuniformScale t =
      fromAffineNonuniformScale (s.componentMul t) := by
  apply eq_of_mul_extend; intro v w
  rw [mul_mulVec]; simp only [fromAffineNonuniformScale_mul]
  congr 1; ext i; simp; ring

theorem C23_uniform_scale_compose (k l : S) :
    (fromAffineScale k : Mat S (n + 1) (n + 1)) * (fromAffineScale l : Mat S (n + 1) (n + 1)) =
      fromAffineScale (k * l) := by
  rw [fromAffineScale_eq, fromAffineScale_eq, C23_scale_compose, fromAffineScale_eq]
  congr 1; ext i; simp

theorem C23_scale_one : (fromAffineScale 1 : Mat S (n + 1) (n + 1)) = identity := by
  apply eq_of_mul_extend; intro v w
  rw [fromAffineScale_eq, fromAffineNonuniformScale_mul, identity_mulVec]; congr 1; ext i; simp

/-- the linear scale matrices multiply each coordinate by its factor -/
theorem C23_linear_scale (s v : Vec S n) : fromNonuniformScale s * v = s.componentMul v := by
  ext r; simp [mulVec_data]

theorem C23_linear_uniform_scale (k : S) (v : Vec S n) : (fromScale k : Mat S n n) * v = v * k := by
  ext r; simp [mulVec_data, mul_comm]

/-! ### shears about an origin: the linear shear on vectors, conjugated by the origin on points -/

section
variable (k : S)

theorem C23_shear2_vector (o : Pt S 2) (d n : Unit' (Vec S 2)) (v : Vec S 2) :
    fromAffineShear3 k o d n * v.extend 0 = (fromShear2 k d n * v).extend 0 := by
  rw [mulVec3_extend, extend2_eq, mulVec2]
  apply Vec.ext3 <;> simp [fromAffineShear3, fromShear2]

theorem C23_shear2_point (o p : Pt S 2) (d n : Unit' (Vec S 2)) :
    fromAffineShear3 k o d n * p.toHomogeneous = (o + fromShear2 k d n * (p - o)).toHomogeneous := by
  rw [toHom, toHom, mulVec3_extend, extend2_eq, Pt.add_coords, mulVec2]
  apply Vec.ext3 <;> simp [fromAffineShear3, fromShear2, Vec.dot2, Pt.toVector] <;> ring

theorem C23_shear3_vector (o : Pt S 3) (d n : Unit' (Vec S 3)) (v : Vec S 3) :
    fromAffineShear4 k o d n * v.extend 0 = (fromShear3 k d n * v).extend 0 := by
  rw [mulVec4_extend, extend3_eq, mulVec3]
  apply Vec.ext4 <;> simp [fromAffineShear4, fromShear3]

theorem C23_shear3_point (o p : Pt S 3) (d n : Unit' (Vec S 3)) :
    fromAffineShear4 k o d n * p.toHomogeneous = (o + fromShear3 k d n * (p - o)).toHomogeneous := by
  rw [toHom, toHom, mulVec4_extend, extend3_eq, Pt.add_coords, mulVec3]
  apply Vec.ext4 <;> simp [fromAffineShear4, fromShear3, Vec.dot3, Pt.toVector] <;> ring

/-! ### reflections through a plane with a bias point -/

theorem C23_reflection2_vector (n : Unit' (Vec S 2)) (b : Pt S 2) (v : Vec S 2) :
    fromAffineReflection3 n b * v.extend 0 = (fromReflection2 n * v).extend 0 := by
  rw [mulVec3_extend, extend2_eq, mulVec2]
  apply Vec.ext3 <;> simp [fromAffineReflection3, fromReflection2]

theorem C23_reflection2_point (n : Unit' (Vec S 2)) (b p : Pt S 2) :
    fromAffineReflection3 n b * p.toHomogeneous = (b + fromReflection2 n * (p - b)).toHomogeneous := by
  rw [toHom, toHom, mulVec3_extend, extend2_eq, Pt.add_coords, mulVec2]
  apply Vec.ext3 <;> simp [fromAffineReflection3, fromReflection2] <;> ring

theorem C23_reflection3_vector (n : Unit' (Vec S 3)) (b : Pt S 3) (v : Vec S 3) :
    fromAffineReflection4 n b * v.extend 0 = (fromReflection3 n * v).extend 0 := by
  rw [mulVec4_extend, extend3_eq, mulVec3]
  apply Vec.ext4 <;> simp [fromAffineReflection4, fromReflection3]

theorem C23_reflection3_point (n : Unit' (Vec S 3)) (b p : Pt S 3) :
    fromAffineReflection4 n b * p.toHomogeneous = (b + fromReflection3 n * (p - b)).toHomogeneous := by
  rw [toHom, toHom, mulVec4_extend, extend3_eq, Pt.add_coords, mulVec3]
  apply Vec.ext4 <;> simp [fromAffineReflection4, fromReflection3] <;> ring

end

/-! ### rotations about the coordinate origin (`w` is 1 for points, 0 for vectors) -/

theorem C23_angle2 (t : Radians ℝ) (v : Vec ℝ 2) (w : ℝ) :
    fromAffineAngle3 t * v.extend w = (fromAngle2 t * v).extend w := by
  rw [mulVec3_extend, extend2_eq, mulVec2]
  apply Vec.ext3 <;> simp [fromAffineAngle3, fromAngle2]

theorem C23_angle_x (t : Radians ℝ) (v : Vec ℝ 3) (w : ℝ) :
    fromAffineAngleX4 t * v.extend w = (fromAngleX3 t * v).extend w := by
  rw [mulVec4_extend, extend3_eq, mulVec3]
  apply Vec.ext4 <;> simp [fromAffineAngleX4, fromAngleX3]

theorem C23_angle_y (t : Radians ℝ) (v : Vec ℝ 3) (w : ℝ) :
    fromAffineAngleY4 t * v.extend w = (fromAngleY3 t * v).extend w := by
  rw [mulVec4_extend, extend3_eq, mulVec3]
  apply Vec.ext4 <;> simp [fromAffineAngleY4, fromAngleY3]

theorem C23_angle_z (t : Radians ℝ) (v : Vec ℝ 3) (w : ℝ) :
    fromAffineAngleZ4 t * v.extend w = (fromAngleZ3 t * v).extend w := by
  rw [mulVec4_extend, extend3_eq, mulVec3]
  apply Vec.ext4 <;> simp [fromAffineAngleZ4, fromAngleZ3]

theorem C23_axis_angle (a : Unit' (Vec ℝ 3)) (t : Radians ℝ) (v : Vec ℝ 3) (w : ℝ) :
    fromAffineAxisAngle4 a t * v.extend w = (fromAxisAngle3 a t * v).extend w := by
  rw [mulVec4_extend, extend3_eq, mulVec3]
  apply Vec.ext4 <;> simp [fromAffineAxisAngle4, fromAxisAngle3]

example : (fromAffineTranslation (Vec.new2 3 4) : Mat ℤ 3 3) * (Pt.new2 1 1 : Pt ℤ 2).toHomogeneous =
    (Pt.new2 4 5).toHomogeneous := by
  rw [C23_translation_point]; congr 1; apply Pt.ext_data; intro i; fin_cases i <;> simp [Pt.new2]

end Cgl

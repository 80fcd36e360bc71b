import Verif.Props.C23_Affine
import Verif.Props.C17_Determinant

/-! # C25 - reflection matrices

`n.value.dot n.value = 1` is what makes `n` a unit vector (`Unit::from_value` guarantees it, C05). -/

namespace Cgl
open Mat

variable {S : Type*} [CommRing S]

/-- `from_reflection(n)` maps `v` to `v - 2 (n . v) n` -/
theorem C25_reflection2 (n : Unit' (Vec S 2)) (v : Vec S 2) :
    fromReflection2 n * v = v - n.value * (2 * n.value.dot v) := by
  rw [mulVec2]; apply Vec.ext2 <;> simp [fromReflection2, Vec.dot2] <;> ring

theorem C25_reflection3 (n : Unit' (Vec S 3)) (v : Vec S 3) :
    fromReflection3 n * v = v - n.value * (2 * n.value.dot v) := by
  rw [mulVec3]; apply Vec.ext3 <;> simp [fromReflection3, Vec.dot3] <;> ring

theorem C25_symmetric2 (n : Unit' (Vec S 2)) : (fromReflection2 n).transpose = fromReflection2 n := by
  apply ext2 <;> simp [fromReflection2] <;> ring
theorem C25_symmetric3 (n : Unit' (Vec S 3)) : (fromReflection3 n).transpose = fromReflection3 n := by
  apply ext3 <;> simp [fromReflection3] <;> ring

section Unit
variable {n2 : Unit' (Vec S 2)} (h2 : n2.value.dot n2.value = 1)
variable {n3 : Unit' (Vec S 3)} (h3 : n3.value.dot n3.value = 1)

include h2 in
theorem C25_involution2 : fromReflection2 n2 * fromReflection2 n2 = identity := by
  rw [Vec.dot2] at h2
  apply ext2 <;> simp [mul_data, Fin.sum_univ_two, fromReflection2] <;> grind

include h3 in
theorem C25_involution3 : fromReflection3 n3 * fromReflection3 n3 = identity := by
  rw [Vec.dot3] at h3
  apply ext3 <;> simp [mul_data, Fin.sum_univ_three, fromReflection3] <;> grind

include h2 in
/-- the transpose is the inverse -/
theorem C25_orthogonal2 : (fromReflection2 n2).transpose * fromReflection2 n2 = identity := by
  rw [C25_symmetric2, C25_involution2 h2]

include h3 in
theorem C25_orthogonal3 : (fromReflection3 n3).transpose * fromReflection3 n3 = identity := by
  rw [C25_symmetric3, C25_involution3 h3]

include h2 in
theorem C25_det2 : (fromReflection2 n2).determinant2 = -1 := by
  rw [Vec.dot2] at h2; simp [determinant2, fromReflection2]; linear_combination (-2) * h2

include h3 in
theorem C25_det3 : (fromReflection3 n3).determinant3 = -1 := by
  rw [Vec.dot3] at h3; simp [determinant3, fromReflection3]; linear_combination (-2) * h3

include h2 in
theorem C25_negates_normal2 : fromReflection2 n2 * n2.value = -n2.value := by
  rw [C25_reflection2, h2]; ext i; simp; ring

include h3 in
theorem C25_negates_normal3 : fromReflection3 n3 * n3.value = -n3.value := by
  rw [C25_reflection3, h3]; ext i; simp; ring

include h2 in
/-- a reflection preserves dot products -/
theorem C25_isometry2 (v w : Vec S 2) :
    (fromReflection2 n2 * v).dot (fromReflection2 n2 * w) = v.dot w := by
  rw [C25_reflection2, C25_reflection2]; simp only [Vec.dot2] at *; simp; grind

include h3 in
theorem C25_isometry3 (v w : Vec S 3) :
    (fromReflection3 n3 * v).dot (fromReflection3 n3 * w) = v.dot w := by
  rw [C25_reflection3, C25_reflection3]; simp only [Vec.dot3] at *; simp; grind

include h2 in
/-- reflecting twice restores every point -/
theorem C25_affine_involution2 (b p : Pt S 2) :
    fromAffineReflection3 n2 b * (fromAffineReflection3 n2 b * p.toHomogeneous) = p.toHomogeneous := by
  rw [C23_reflection2_point, C23_reflection2_point]
  have e : (b + fromReflection2 n2 * (p - b)) - b = fromReflection2 n2 * (p - b) := by
    ext i; simp
  rw [e, ← mul_mulVec, C25_involution2 h2, identity_mulVec]
  congr 1; apply Pt.ext_data; intro i; simp

include h3 in
theorem C25_affine_involution3 (b p : Pt S 3) :
    fromAffineReflection4 n3 b * (fromAffineReflection4 n3 b * p.toHomogeneous) = p.toHomogeneous := by
  rw [C23_reflection3_point, C23_reflection3_point]
  have e : (b + fromReflection3 n3 * (p - b)) - b = fromReflection3 n3 * (p - b) := by
    ext i; simp
  rw [e, ← mul_mulVec, C25_involution3 h3, identity_mulVec]
  congr 1; apply Pt.ext_data; intro i; simp

end Unit

/-- vectors orthogonal to the normal are fixed -/
theorem C25_fixes2 (n : Unit' (Vec S 2)) (v : Vec S 2) (h : n.value.dot v = 0) :
    fromReflection2 n * v = v := by
  rw [C25_reflection2, h]; ext i; simp
theorem C25_fixes3 (n : Unit' (Vec S 3)) (v : Vec S 3) (h : n.value.dot v = 0) :
    fromReflection3 n * v = v := by
  rw [C25_reflection3, h]; ext i; simp

/-- `from_affine_reflection(n, b)` fixes the line / plane through `b` and maps `b + v` to `b + reflected v` -/
theorem C25_affine_fixes2 (n : Unit' (Vec S 2)) (b p : Pt S 2) (h : n.value.dot (p - b) = 0) :
    fromAffineReflection3 n b * p.toHomogeneous = p.toHomogeneous := by
  rw [C23_reflection2_point, C25_fixes2 n _ h]; congr 1; apply Pt.ext_data; intro i; simp
theorem C25_affine_fixes3 (n : Unit' (Vec S 3)) (b p : Pt S 3) (h : n.value.dot (p - b) = 0) :
    fromAffineReflection4 n b * p.toHomogeneous = p.toHomogeneous := by
  rw [C23_reflection3_point, C25_fixes3 n _ h]; congr 1; apply Pt.ext_data; intro i; simp

theorem C25_affine_moves2 (n : Unit' (Vec S 2)) (b : Pt S 2) (v : Vec S 2) :
    fromAffineReflection3 n b * (b + v).toHomogeneous =
      (b + (v - n.value * (2 * n.value.dot v))).toHomogeneous := by
  rw [C23_reflection2_point, ← C25_reflection2]; congr 3; ext i; simp
theorem C25_affine_moves3 (n : Unit' (Vec S 3)) (b : Pt S 3) (v : Vec S 3) :
    fromAffineReflection4 n b * (b + v).toHomogeneous =
      (b + (v - n.value * (2 * n.value.dot v))).toHomogeneous := by
  rw [C23_reflection3_point, ← C25_reflection3]; congr 3; ext i; simp

/-- the matrix agrees with `Vector::reflect`-style arithmetic on a slanted unit normal -/
example : fromReflection2 (⟨Vec.new2 (3/5) (4/5)⟩ : Unit' (Vec ℚ 2)) * (Vec.new2 1 0 : Vec ℚ 2) =
    Vec.new2 (7/25) (-24/25) := by
  rw [C25_reflection2]; apply Vec.ext2 <;> simp [Vec.dot2] <;> norm_num
example : (Vec.new3 (2/3) (1/3) (2/3) : Vec ℚ 3).dot (Vec.new3 (2/3) (1/3) (2/3)) = 1 := by
  rw [Vec.dot3]; simp; norm_num

end Cgl

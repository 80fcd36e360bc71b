import Verif.Props.C23_Affine
import Verif.Props.C17_Determinant

/-! # C24 - shear matrices -/

namespace Cgl
open Mat

variable {S : Type*} [CommRing S] (k l : S)

/-- `from_shear(k, d, n)` maps `v` to `v + k (n . v) d` -/
theorem C24_shear2 (d n : Unit' (Vec S 2)) (v : Vec S 2) :
    fromShear2 k d n * v = v + d.value * (k * n.value.dot v) := by
  rw [mulVec2]; apply Vec.ext2 <;> simp [fromShear2, Vec.dot2] <;> ring

theorem C24_shear3 (d n : Unit' (Vec S 3)) (v : Vec S 3) :
    fromShear3 k d n * v = v + d.value * (k * n.value.dot v) := by
  rw [mulVec3]; apply Vec.ext3 <;> simp [fromShear3, Vec.dot3] <;> ring

section Orthogonal

theorem C24_det2 (d n : Unit' (Vec S 2)) (h : d.value.dot n.value = 0) :
    (fromShear2 k d n).determinant2 = 1 := by
  rw [Vec.dot2] at h; simp [determinant2, fromShear2]; linear_combination k * h

theorem C24_det3 (d n : Unit' (Vec S 3)) (h : d.value.dot n.value = 0) :
    (fromShear3 k d n).determinant3 = 1 := by
  rw [Vec.dot3] at h; simp [determinant3, fromShear3]; linear_combination k * h

theorem C24_compose2 (d n : Unit' (Vec S 2)) (h : d.value.dot n.value = 0) :
    fromShear2 k d n * fromShear2 l d n = fromShear2 (k + l) d n := by
  rw [Vec.dot2] at h
  apply ext2 <;> simp [mul_data, Fin.sum_univ_two, fromShear2]
  · linear_combination k * l * d.value.data 0 * n.value.data 0 * h
  · linear_combination k * l * d.value.data 1 * n.value.data 0 * h
  · linear_combination k * l * d.value.data 0 * n.value.data 1 * h
  · linear_combination k * l * d.value.data 1 * n.value.data 1 * h

theorem C24_compose3 (d n : Unit' (Vec S 3)) (h : d.value.dot n.value = 0) :
    fromShear3 k d n * fromShear3 l d n = fromShear3 (k + l) d n := by
  rw [Vec.dot3] at h
  apply ext3 <;> simp [mul_data, Fin.sum_univ_three, fromShear3]
  · linear_combination k * l * d.value.data 0 * n.value.data 0 * h
  · linear_combination k * l * d.value.data 1 * n.value.data 0 * h
  · linear_combination k * l * d.value.data 2 * n.value.data 0 * h
  · linear_combination k * l * d.value.data 0 * n.value.data 1 * h
  · linear_combination k * l * d.value.data 1 * n.value.data 1 * h
  · linear_combination k * l * d.value.data 2 * n.value.data 1 * h
  · linear_combination k * l * d.value.data 0 * n.value.data 2 * h
  · linear_combination k * l * d.value.data 1 * n.value.data 2 * h
  · linear_combination k * l * d.value.data 2 * n.value.data 2 * h

theorem C24_zero2 (d n : Unit' (Vec S 2)) : fromShear2 0 d n = identity := by
  apply ext2 <;> simp [fromShear2]
theorem C24_zero3 (d n : Unit' (Vec S 3)) : fromShear3 0 d n = identity := by
  apply ext3 <;> simp [fromShear3]

theorem C24_inverse2 (d n : Unit' (Vec S 2)) (h : d.value.dot n.value = 0) :
    fromShear2 k d n * fromShear2 (-k) d n = identity ∧ fromShear2 (-k) d n * fromShear2 k d n = identity := by
  constructor
  · rw [C24_compose2 _ _ d n h, add_neg_cancel, C24_zero2]
  · rw [C24_compose2 _ _ d n h, neg_add_cancel, C24_zero2]

theorem C24_inverse3 (d n : Unit' (Vec S 3)) (h : d.value.dot n.value = 0) :
    fromShear3 k d n * fromShear3 (-k) d n = identity ∧ fromShear3 (-k) d n * fromShear3 k d n = identity := by
  constructor
  · rw [C24_compose3 _ _ d n h, add_neg_cancel, C24_zero3]
  · rw [C24_compose3 _ _ d n h, neg_add_cancel, C24_zero3]

end Orthogonal

/-- vectors orthogonal to the normal are fixed -/
theorem C24_fixes2 (d n : Unit' (Vec S 2)) (v : Vec S 2) (h : n.value.dot v = 0) :
    fromShear2 k d n * v = v := by
  rw [C24_shear2, h]; ext i; simp
theorem C24_fixes3 (d n : Unit' (Vec S 3)) (v : Vec S 3) (h : n.value.dot v = 0) :
    fromShear3 k d n * v = v := by
  rw [C24_shear3, h]; ext i; simp

/-- the affine shears fix every point of the line / plane through the origin with that normal -/
theorem C24_affine_fixes2 (o p : Pt S 2) (d n : Unit' (Vec S 2)) (h : n.value.dot (p - o) = 0) :
    fromAffineShear3 k o d n * p.toHomogeneous = p.toHomogeneous := by
  rw [C23_shear2_point, C24_fixes2 k d n _ h]; congr 1; apply Pt.ext_data; intro i; simp
theorem C24_affine_fixes3 (o p : Pt S 3) (d n : Unit' (Vec S 3)) (h : n.value.dot (p - o) = 0) :
    fromAffineShear4 k o d n * p.toHomogeneous = p.toHomogeneous := by
  rw [C23_shear3_point, C24_fixes3 k d n _ h]; congr 1; apply Pt.ext_data; intro i; simp

/-- the affine shears displace a point along `d` by `k` times its signed distance to that plane -/
theorem C24_affine_moves2 (o p : Pt S 2) (d n : Unit' (Vec S 2)) :
    fromAffineShear3 k o d n * p.toHomogeneous = (p + d.value * (k * n.value.dot (p - o))).toHomogeneous := by
  rw [C23_shear2_point, C24_shear2]; congr 1; apply Pt.ext_data; intro i; simp; ring
theorem C24_affine_moves3 (o p : Pt S 3) (d n : Unit' (Vec S 3)) :
    fromAffineShear4 k o d n * p.toHomogeneous = (p + d.value * (k * n.value.dot (p - o))).toHomogeneous := by
  rw [C23_shear3_point, C24_shear3]; congr 1; apply Pt.ext_data; intro i; simp; ring

/-! ### the axis-specific constructors are the general one along the unit axes: in `from_shear_xy` the
`x` axis is the shearing direction and `y` the axis whose coordinate scales the displacement -/


theorem C24_axis2 :
    fromShearXY2 k = fromShear2 k ⟨Vec.unitX2⟩ ⟨Vec.unitY2⟩ ∧
    fromShearYX2 k = fromShear2 k ⟨Vec.unitY2⟩ ⟨Vec.unitX2⟩ := by
  constructor <;> apply ext2 <;>
    simp [fromShearXY2, fromShearYX2, fromShear2, Vec.unitX2, Vec.unitY2]

theorem C24_axis3 :
    fromShearXY3 k = fromShear3 k ⟨Vec.unitX3⟩ ⟨Vec.unitY3⟩ ∧
    fromShearXZ3 k = fromShear3 k ⟨Vec.unitX3⟩ ⟨Vec.unitZ3⟩ ∧
    fromShearYX3 k = fromShear3 k ⟨Vec.unitY3⟩ ⟨Vec.unitX3⟩ ∧
    fromShearYZ3 k = fromShear3 k ⟨Vec.unitY3⟩ ⟨Vec.unitZ3⟩ ∧
    fromShearZX3 k = fromShear3 k ⟨Vec.unitZ3⟩ ⟨Vec.unitX3⟩ ∧
    fromShearZY3 k = fromShear3 k ⟨Vec.unitZ3⟩ ⟨Vec.unitY3⟩ := by
  refine ⟨?_, ?_, ?_, ?_, ?_, ?_⟩ <;> apply ext3 <;>
    simp [fromShearXY3, fromShearXZ3, fromShearYX3, fromShearYZ3, fromShearZX3, fromShearZY3, fromShear3,
      Vec.unitX3, Vec.unitY3, Vec.unitZ3]

theorem C24_affine_axis2 :
    fromAffineShearXY3 k = fromAffineShear3 k Pt.origin ⟨Vec.unitX2⟩ ⟨Vec.unitY2⟩ ∧
    fromAffineShearYX3 k = fromAffineShear3 k Pt.origin ⟨Vec.unitY2⟩ ⟨Vec.unitX2⟩ := by
  constructor <;> apply ext3 <;>
    simp [fromAffineShearXY3, fromAffineShearYX3, fromAffineShear3, Vec.unitX2, Vec.unitY2, Vec.dot2,
      Pt.toVector]

theorem C24_affine_axis3 :
    fromAffineShearXY4 k = fromAffineShear4 k Pt.origin ⟨Vec.unitX3⟩ ⟨Vec.unitY3⟩ ∧
    fromAffineShearXZ4 k = fromAffineShear4 k Pt.origin ⟨Vec.unitX3⟩ ⟨Vec.unitZ3⟩ ∧
    fromAffineShearYX4 k = fromAffineShear4 k Pt.origin ⟨Vec.unitY3⟩ ⟨Vec.unitX3⟩ ∧
    fromAffineShearYZ4 k = fromAffineShear4 k Pt.origin ⟨Vec.unitY3⟩ ⟨Vec.unitZ3⟩ ∧
    fromAffineShearZX4 k = fromAffineShear4 k Pt.origin ⟨Vec.unitZ3⟩ ⟨Vec.unitX3⟩ ∧
    fromAffineShearZY4 k = fromAffineShear4 k Pt.origin ⟨Vec.unitZ3⟩ ⟨Vec.unitY3⟩ := by
  refine ⟨?_, ?_, ?_, ?_, ?_, ?_⟩ <;> apply ext4 <;>
    simp [fromAffineShearXY4, fromAffineShearXZ4, fromAffineShearYX4, fromAffineShearYZ4,
      fromAffineShearZX4, fromAffineShearZY4, fromAffineShear4, Vec.unitX3, Vec.unitY3, Vec.unitZ3,
      Vec.dot3, Pt.toVector]

/-- the hypothesis `d . n = 0` is met by a pair of unit vectors that are not axes -/
example : (Vec.new2 (3/5) (4/5) : Vec ℚ 2).dot (Vec.new2 (-4/5) (3/5)) = 0 ∧
    (Vec.new2 (3/5) (4/5) : Vec ℚ 2).normSquared = 1 := by
  constructor
  · rw [Vec.dot2]; simp; norm_num
  · rw [Vec.normSquared, Vec.dot2]; simp; norm_num

end Cgl

import Verif.Lemmas.Quaternion
import Verif.Props.C26_Rotation

/-!
# C41 - the rotation matrix of a quaternion
-/

namespace Cgl
open Quat

section Field
variable {K : Type*} [Field K] (p q : Quat K)

theorem Quat.sq_ne {q : Quat K} (h : q.normSquared ≠ 0) : q.s ^ 2 + q.x ^ 2 + q.y ^ 2 + q.z ^ 2 ≠ 0 := by
  rw [normSquared_eq] at h; simpa only [sq] using h

/-- The matrix acts on a vector by conjugation: `q v q⁻¹`, with `q⁻¹ = conj(q) / |q|²`. -/
theorem C41_conjugation (h : q.normSquared ≠ 0) (v : Vec K 3) :
    q * fromPure v * (q.conjugate / q.normSquared) = fromPure (q.toMatrix * v) := by
  have h' := Quat.sq_ne h
  rw [Mat.mulVec3]
  apply ext4 <;> simp [toMatrix, normSquared_eq] <;> field_simp <;> ring

/-- the same with any two-sided inverse of `q` -/
theorem C41_conjugation_inverse (h : q.normSquared ≠ 0) {r : Quat K} (hr : q * r = identity) (v : Vec K 3) :
    q * fromPure v * r = fromPure (q.toMatrix * v) := by
  rw [← C41_conjugation q h v]
  have e : q.conjugate / q.normSquared * q = identity := by
    have h' := Quat.sq_ne h
    apply ext4 <;> simp [normSquared_eq] <;> field_simp <;> ring
  have : r = q.conjugate / q.normSquared := by
    calc r = identity * r := by apply ext4 <;> simp
      _ = q.conjugate / q.normSquared * (q * r) := by rw [← e, mul_assoc']
      _ = q.conjugate / q.normSquared := by rw [hr]; apply ext4 <;> simp
  rw [this]

theorem C41_mul (hp : p.normSquared ≠ 0) (hq : q.normSquared ≠ 0) :
    (p * q).toMatrix = p.toMatrix * q.toMatrix := by
  have hp' := Quat.sq_ne hp
  have hq' := Quat.sq_ne hq
  have hm : (p * q).normSquared = p.normSquared * q.normSquared := normSquared_mul p q
  apply Mat.ext3 <;> simp only [toMatrix, hm] <;>
    simp [Mat.mul_data, Fin.sum_univ_three, normSquared_eq] <;> field_simp <;> ring

theorem C41_scale (h : q.normSquared ≠ 0) {k : K} (hk : k ≠ 0) : (q * k).toMatrix = q.toMatrix := by
  have h' := Quat.sq_ne h
  have hm : (q * k).normSquared = q.normSquared * (k * k) := normSquared_mulS q k
  apply Mat.ext3 <;> simp only [toMatrix, hm] <;> simp [normSquared_eq] <;> field_simp

theorem C41_neg : (-q).toMatrix = q.toMatrix := by
  have hm : (-q).normSquared = q.normSquared := by simp [normSquared_eq]
  apply Mat.ext3 <;> simp only [toMatrix, hm] <;> simp

theorem C41_conj : q.conjugate.toMatrix = q.toMatrix.transpose := by
  have hm : q.conjugate.normSquared = q.normSquared := by simp [normSquared_eq]
  apply Mat.ext3 <;> simp only [toMatrix, hm] <;> simp <;> ring

theorem C41_identity : (identity : Quat K).toMatrix = Mat.identity := by
  apply Mat.ext3 <;> simp [toMatrix, normSquared_eq]

/-- the 4x4 matrix applies the 3x3 matrix to the first three coordinates and keeps the fourth -/
theorem C41_affine (v : Vec K 3) (w : K) : q.toAffineMatrix * v.extend w = (q.toMatrix * v).extend w := by
  rw [Mat.mulVec4_extend, Mat.mulVec3]; apply Vec.ext4 <;> simp [toAffineMatrix, toMatrix]

/-- the `_mut` versions overwrite whatever the target held with the same values -/
theorem C41_mut (m : Mat K 3 3) (m4 : Mat K 4 4) :
    q.toMatrixMut m = q.toMatrix ∧ q.toAffineMatrixMut m4 = q.toAffineMatrix := by
  constructor
  · apply Mat.ext3 <;> simp [toMatrixMut, toMatrix, Mat.set_apply]
  · apply Mat.ext4 <;> simp [toAffineMatrixMut, toAffineMatrix, Mat.set_apply]

end Field

/-- For every non-zero `q` the matrix is a rotation. -/
theorem C41_rotation (q : Quat ℝ) (h : q ≠ 0) : Spec.IsRotation q.toMatrix := by
  have h' := Quat.sq_ne (normSquared_eq_zero.not.mpr h)
  apply Spec.IsRotation.of_transpose_mul
  · apply Mat.ext3 <;> simp [Mat.mul_data, Fin.sum_univ_three, toMatrix, normSquared_eq] <;>
      field_simp <;> ring
  · rw [← C17_det3]; simp [Mat.determinant3, toMatrix, normSquared_eq]; field_simp; ring

/-- Exactly the real quaternions give the identity rotation. -/
theorem C41_kernel (q : Quat ℝ) (h : q ≠ 0) : q.toMatrix = Mat.identity ↔ q.vector = 0 := by
  have hp := normSquared_pos h
  constructor
  · intro hI
    have e0 := congrArg (fun m => m.data 0 0) hI
    have e1 := congrArg (fun m => m.data 1 1) hI
    have hne : (1 + 1) / q.normSquared ≠ 0 := by positivity
    simp only [toMatrix, Mat.new3x3_data, Mat.identity_data, coords_data, Matrix.cons_val, if_true] at e0 e1
    have h0 : (1 + 1) / q.normSquared * (q.y ^ 2 + q.z ^ 2) = 0 := by linear_combination -e0
    have h1 : (1 + 1) / q.normSquared * (q.x ^ 2 + q.z ^ 2) = 0 := by linear_combination -e1
    replace h0 := (mul_eq_zero.mp h0).resolve_left hne
    replace h1 := (mul_eq_zero.mp h1).resolve_left hne
    have hx : q.x ^ 2 = 0 := by nlinarith [sq_nonneg q.x, sq_nonneg q.z]
    have hy : q.y ^ 2 = 0 := by nlinarith [sq_nonneg q.y, sq_nonneg q.z]
    have hz : q.z ^ 2 = 0 := by nlinarith [sq_nonneg q.y, sq_nonneg q.z]
    apply Vec.ext3 <;> simp [pow_eq_zero_iff two_ne_zero |>.mp hx, pow_eq_zero_iff two_ne_zero |>.mp hy,
      pow_eq_zero_iff two_ne_zero |>.mp hz]
  · intro hv
    have hx : q.x = 0 := congrArg (fun v => v.data 0) hv
    have hy : q.y = 0 := congrArg (fun v => v.data 1) hv
    have hz : q.z = 0 := congrArg (fun v => v.data 2) hv
    apply Mat.ext3 <;> simp [toMatrix, hx, hy, hz]

/-- two quaternions with the same matrix are real multiples of each other -/
theorem C41_injective (p q : Quat ℝ) (hp : p.norm = 1) (hq : q.norm = 1) (h : p.toMatrix = q.toMatrix) :
    p = q ∨ p = -q := by
  have np := norm_eq_one_iff.mp hp
  have nq := norm_eq_one_iff.mp hq
  rw [normSquared_eq] at np nq
  have e : ∀ c r, p.toMatrix.data c r = q.toMatrix.data c r := fun c r => by rw [h]
  have e00 := e 0 0; have e01 := e 0 1; have e02 := e 0 2
  have e10 := e 1 0; have e11 := e 1 1; have e12 := e 1 2
  have e20 := e 2 0; have e21 := e 2 1; have e22 := e 2 2
  simp [toMatrix, normSquared_eq, np, nq, one_add_one_eq_two] at e00 e01 e02 e10 e11 e12 e20 e21 e22
  -- all products `p_i p_j` and `q_i q_j` agree, so `(p · q)² = 1`
  have ss : p.s * p.s = q.s * q.s := by linarith
  have xx : p.x * p.x = q.x * q.x := by linarith
  have yy : p.y * p.y = q.y * q.y := by linarith
  have zz : p.z * p.z = q.z * q.z := by linarith
  have sx : p.s * p.x = q.s * q.x := by linarith
  have sy : p.s * p.y = q.s * q.y := by linarith
  have sz : p.s * p.z = q.s * q.z := by linarith
  have xy : p.x * p.y = q.x * q.y := by linarith
  have xz : p.x * p.z = q.x * q.z := by linarith
  have yz : p.y * p.z = q.y * q.z := by linarith
  have hd : (p.s * q.s + p.x * q.x + p.y * q.y + p.z * q.z) ^ 2 = 1 := by
    have : (p.s * q.s + p.x * q.x + p.y * q.y + p.z * q.z) ^ 2 =
        (q.s * q.s + q.x * q.x + q.y * q.y + q.z * q.z) ^ 2 := by
      linear_combination q.s * q.s * ss + q.x * q.x * xx + q.y * q.y * yy + q.z * q.z * zz +
        2 * q.s * q.x * sx + 2 * q.s * q.y * sy + 2 * q.s * q.z * sz + 2 * q.x * q.y * xy +
        2 * q.x * q.z * xz + 2 * q.y * q.z * yz
    rw [this, nq]; norm_num
  have hd' : (p.s * q.s + p.x * q.x + p.y * q.y + p.z * q.z - 1) *
      (p.s * q.s + p.x * q.x + p.y * q.y + p.z * q.z + 1) = 0 := by linear_combination hd
  rcases mul_eq_zero.mp hd' with h1 | h1
  · left
    have : (p - q).normSquared = 0 := by
      rw [normSquared_eq]; simp; linear_combination np + nq - 2 * h1
    have := normSquared_eq_zero.mp this
    apply ext4
    · have := congrArg Quat.s this; simp at this; linarith
    · have := congrArg Quat.x this; simp at this; linarith
    · have := congrArg Quat.y this; simp at this; linarith
    · have := congrArg Quat.z this; simp at this; linarith
  · right
    have : (p + q).normSquared = 0 := by
      rw [normSquared_eq]; simp; linear_combination np + nq + 2 * h1
    have := normSquared_eq_zero.mp this
    apply ext4
    · have := congrArg Quat.s this; simp at this; simp; linarith
    · have := congrArg Quat.x this; simp at this; simp; linarith
    · have := congrArg Quat.y this; simp at this; simp; linarith
    · have := congrArg Quat.z this; simp at this; simp; linarith

/-- a concrete matrix: the quaternion `1 + i + j + k` permutes the axes cyclically -/
example : (new 1 1 1 1 : Quat ℝ).toMatrix = Mat.new3x3 0 1 0 0 0 1 1 0 0 := by
  apply Mat.ext3 <;> simp [toMatrix, normSquared_eq] <;> norm_num
example : (new 1 1 1 1 : Quat ℝ) ≠ 0 := by intro h; have := congrArg Quat.s h; simp at this

end Cgl

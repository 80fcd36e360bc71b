import Verif.Model.Transform
import Verif.Props.C13_MatMul
import Verif.Props.C14_Transpose
import Verif.Props.C27_Embedding
import Verif.Props.C42_QuaternionFromMatrix
import Verif.Props.C52_DegRad

/-! # C49 - Euler angles: roll about x, yaw about y, pitch about z -/

namespace Cgl
open Mat

variable (e : Euler (Radians ℝ))

theorem Euler.toMatrix_eq (e : Euler (Radians ℝ)) : e.toMatrix = new3x3
    (Real.cos e.y.val * Real.cos e.z.val)
    (Real.cos e.x.val * Real.sin e.z.val + Real.cos e.z.val * Real.sin e.y.val * Real.sin e.x.val)
    (Real.sin e.z.val * Real.sin e.x.val - Real.cos e.z.val * Real.cos e.x.val * Real.sin e.y.val)
    (-Real.cos e.y.val * Real.sin e.z.val)
    (Real.cos e.z.val * Real.cos e.x.val - Real.sin e.y.val * Real.sin e.z.val * Real.sin e.x.val)
    (Real.cos e.z.val * Real.sin e.x.val + Real.cos e.x.val * Real.sin e.y.val * Real.sin e.z.val)
    (Real.sin e.y.val) (-Real.cos e.y.val * Real.sin e.x.val) (Real.cos e.y.val * Real.cos e.x.val) := rfl

/-- The rotation of a triple is the product of the three elementary rotations. -/
theorem C49_product : e.toMatrix = fromAngleX3 e.x * fromAngleY3 e.y * fromAngleZ3 e.z := by
  rw [Euler.toMatrix_eq]
  apply ext3 <;>
    simp [mul_data, Fin.sum_univ_three, fromAngleX3, fromAngleY3, fromAngleZ3] <;> ring

theorem Spec.IsRotation.mul {n : ℕ} {A B : Mat ℝ n n} (hA : Spec.IsRotation A) (hB : Spec.IsRotation B) :
    Spec.IsRotation (A * B) := by
  apply Spec.IsRotation.of_transpose_mul
  · rw [C14_transpose_mul, C13_mul_assoc, ← C13_mul_assoc A.transpose, hA.transpose_mul, C13_one_mul,
      hB.transpose_mul]
  · have h := hA.det_one; have h' := hB.det_one
    rw [leibniz_eq] at *
    rw [toMatrix_mul, Matrix.det_mul, h, h', one_mul]

/-- It is a proper rotation. -/
theorem C49_rotation : Spec.IsRotation e.toMatrix := by
  rw [C49_product]
  exact ((C26_angle_x_rotation _).mul (C26_angle_y_rotation _)).mul (C26_angle_z_rotation _)

/-- The affine matrix is the embedding of the 3x3 one, and the elementary affine product. -/
theorem C49_affine : e.toAffineMatrix = embed (by decide : 3 < 4) e.toMatrix ∧
    e.toAffineMatrix = fromAffineAngleX4 e.x * fromAffineAngleY4 e.y * fromAffineAngleZ4 e.z := by
  constructor
  · apply ext4 <;> simp [C27_entry, Euler.toAffineMatrix, Euler.toMatrix_eq]
  · apply ext4 <;> simp [mul_data, Fin.sum_univ_four, Euler.toAffineMatrix, fromAffineAngleX4, fromAffineAngleY4,
      fromAffineAngleZ4] <;> ring

/-- Angles in degrees give the rotation of the same angles in radians, through every route. -/
theorem C49_degrees (e : Euler (Degrees ℝ)) :
    e.toMatrix = fromEulerAngles3 Radians.ofDegrees e ∧
    e.toAffineMatrix = fromEulerAngles4 Radians.ofDegrees e ∧
    (Rotation.fromEulerAngles Radians.ofDegrees e).matrix = e.toMatrix ∧
    fromEulerAngles3 Radians.ofDegrees e = fromAngleX3 (Radians.ofDegrees e.x) *
      fromAngleY3 (Radians.ofDegrees e.y) * fromAngleZ3 (Radians.ofDegrees e.z) := by
  refine ⟨rfl, rfl, rfl, ?_⟩
  exact C49_product _

theorem C49_zero : (Euler.zero : Euler (Radians ℝ)).toMatrix = identity := by
  rw [Euler.toMatrix_eq]; apply ext3 <;> simp [Euler.zero]

/-! ### extraction -/

private theorem polar {x y c : ℝ} (h : x ^ 2 + y ^ 2 = c ^ 2) (hc : 0 ≤ c) :
    c * Real.cos (Complex.arg ⟨x, y⟩) = x ∧ c * Real.sin (Complex.arg ⟨x, y⟩) = y := by
  have hn : ‖(⟨x, y⟩ : ℂ)‖ = c := by
    rw [Complex.norm_eq_sqrt_sq_add_sq]; simp only; rw [h, Real.sqrt_sq hc]
  exact ⟨by rw [← hn]; exact Complex.norm_mul_cos_arg (⟨x, y⟩ : ℂ),
    by rw [← hn]; exact Complex.norm_mul_sin_arg (⟨x, y⟩ : ℂ)⟩

private theorem locked {a d f g k l m : ℝ} (r0 : a ^ 2 + d ^ 2 + k ^ 2 = 1) (e2 : k ^ 2 + l ^ 2 + m ^ 2 = 1)
    (e1 : d ^ 2 + f ^ 2 + g ^ 2 = 1) (hk : 0 = 1 - k ^ 2) :
    a = 0 ∧ d = 0 ∧ l = 0 ∧ m = 0 ∧ f ^ 2 + g ^ 2 = 1 ^ 2 := by
  have ha : a ^ 2 = 0 := by nlinarith [sq_nonneg a, sq_nonneg d]
  have hd : d ^ 2 = 0 := by nlinarith [sq_nonneg a, sq_nonneg d]
  have hl : l ^ 2 = 0 := by nlinarith [sq_nonneg l, sq_nonneg m]
  have hm : m ^ 2 = 0 := by nlinarith [sq_nonneg l, sq_nonneg m]
  simp only [ne_eq, OfNat.ofNat_ne_zero, not_false_eq_true, pow_eq_zero_iff] at ha hd hl hm
  exact ⟨ha, hd, hl, hm, by rw [hd] at e1; linarith⟩

private theorem unlocked {a b c d f g k l m t cr sr cp sp : ℝ} (ht : t ≠ 0) (hk : t ^ 2 = 1 - k ^ 2)
    (p1 : t * cr = m) (p2 : t * sr = -l) (q1 : t * cp = a) (q2 : t * sp = -d)
    (c01 : g * k - d * m = b) (c02 : d * l - f * k = c) (c11 : m * a - k * c = f) (c12 : k * b - l * a = g) :
    cr * sp + cp * k * sr = b ∧ sp * sr - cp * cr * k = c ∧ cp * cr - k * sp * sr = f ∧
      cp * sr + cr * k * sp = g := by
  have t2 : t ^ 2 ≠ 0 := pow_ne_zero 2 ht
  have hl : l = -(t * sr) := by linarith
  have hd : d = -(t * sp) := by linarith
  subst hl hd p1 q1
  have hb : cr * sp + cp * k * sr = b := by
    apply mul_left_cancel₀ t2
    linear_combination k * c12 + c01 - b * hk
  have hc : sp * sr - cp * cr * k = c := by
    apply mul_left_cancel₀ t2
    linear_combination c02 - k * c11 - c * hk
  refine ⟨hb, hc, ?_, ?_⟩
  · subst hc; linear_combination c11 - (cp * cr) * hk
  · subst hb; linear_combination c12 - (cp * sr) * hk

/-- Rebuilding the rotation from the extracted angles gives the rotation back, gimbal lock included. -/
theorem C49_round_trip {R : Mat ℝ 3 3} (h : Spec.IsRotation R) : (Euler.fromMatrix R).toMatrix = R := by
  obtain ⟨⟨c00, c01, c02⟩, ⟨c10, c11, c12⟩, c20, c21, c22⟩ := h.cofactors
  have e11 : (R.transpose * R).data 1 1 = 1 := by rw [h.transpose_mul]; simp
  have e22 : (R.transpose * R).data 2 2 = 1 := by rw [h.transpose_mul]; simp
  have r00 : (R * R.transpose).data 0 0 = 1 := by rw [h.mul_transpose]; simp
  simp [Mat.mul_data, Fin.sum_univ_three, ← sq] at e11 e22 r00
  have hk : R.data 2 0 ^ 2 ≤ 1 := by nlinarith only [e22, sq_nonneg (R.data 2 1), sq_nonneg (R.data 2 2)]
  have hk1 := abs_le.mp ((sq_le_one_iff_abs_le_one _).mp hk)
  have hs : Real.sin (Real.arcsin (R.data 2 0)) = R.data 2 0 := Real.sin_arcsin hk1.1 hk1.2
  have hc : Real.cos (Real.arcsin (R.data 2 0)) ^ 2 = 1 - R.data 2 0 ^ 2 := by
    have := Real.sin_sq_add_cos_sq (Real.arcsin (R.data 2 0)); rw [hs] at this; linarith
  have hcn : 0 ≤ Real.cos (Real.arcsin (R.data 2 0)) := Real.cos_arcsin_nonneg _
  by_cases h0 : Real.cos (Real.arcsin (R.data 2 0)) = 0
  · have hE : Euler.fromMatrix R = ⟨⟨Complex.arg ⟨R.data 1 1, R.data 1 2⟩⟩, ⟨Real.arcsin (R.data 2 0)⟩, ⟨0⟩⟩ := by
      have h0' : sabs (Angle.cos (Angle.asin (R.data 2 0) : Radians ℝ)) = 0 := by
        rw [sabs_eq, abs_eq_zero]; exact h0
      simp only [Euler.fromMatrix, beq_iff_eq]; rw [if_pos h0']; rfl
    rw [h0] at hc
    obtain ⟨a, d, l, m, hfg⟩ := locked r00 e22 e11 (by linarith)
    obtain ⟨p1, p2⟩ := polar hfg (by norm_num)
    rw [one_mul] at p1 p2
    rw [hE, Euler.toMatrix_eq]
    rw [d, m] at c01
    rw [d, l] at c02
    apply ext3 <;> simp [hs, h0, p1, p2, a, d, l, m]
    · linarith
    · linarith
  · have hE : Euler.fromMatrix R = ⟨⟨Complex.arg ⟨R.data 2 2, -R.data 2 1⟩⟩, ⟨Real.arcsin (R.data 2 0)⟩,
        ⟨Complex.arg ⟨R.data 0 0, -R.data 1 0⟩⟩⟩ := by
      have h0' : ¬ sabs (Angle.cos (Angle.asin (R.data 2 0) : Radians ℝ)) = 0 := by
        rw [sabs_eq, abs_eq_zero]; exact h0
      simp only [Euler.fromMatrix, beq_iff_eq]; rw [if_neg h0']; rfl
    obtain ⟨p1, p2⟩ := polar (x := R.data 2 2) (y := -R.data 2 1) (by rw [hc]; linarith) hcn
    obtain ⟨q1, q2⟩ := polar (x := R.data 0 0) (y := -R.data 1 0) (by rw [hc]; linarith) hcn
    obtain ⟨u1, u2, u3, u4⟩ := unlocked h0 hc p1 p2 q1 q2 c01 c02 c11 c12
    rw [hE, Euler.toMatrix_eq]
    apply ext3 <;> simp only [new3x3_data, hs] 
    all_goals simp
    all_goals linarith

/-- `Rotation3::euler_angles` extracts the same angles. -/
theorem C49_rotation3 (t : Rotation ℝ 3) : t.eulerAngles = Euler.fromMatrix t.matrix := rfl

theorem C49_rotation3_round_trip (t : Rotation ℝ 3) (h : Spec.IsRotation t.matrix) :
    Rotation.fromEulerAngles id t.eulerAngles = t := by
  rw [C49_rotation3]
  show (⟨(Euler.fromMatrix t.matrix).toMatrix⟩ : Rotation ℝ 3) = t
  rw [C49_round_trip h]

/-- From a quaternion: the angles describe the rotation the quaternion performs. -/
theorem C49_quaternion (q : Quat ℝ) (h : q ≠ 0) : (Euler.fromQuaternion q).toMatrix = q.toMatrix :=
  C49_round_trip (C41_rotation q h)

/-- The extracted angles are in the principal ranges. -/
theorem C49_ranges (R : Mat ℝ 3 3) :
    (Euler.fromMatrix R).x.val ∈ Set.Ioc (-Real.pi) Real.pi ∧
    (Euler.fromMatrix R).y.val ∈ Set.Icc (-(Real.pi / 2)) (Real.pi / 2) ∧
    (Euler.fromMatrix R).z.val ∈ Set.Ioc (-Real.pi) Real.pi := by
  simp only [Euler.fromMatrix]
  split_ifs <;> refine ⟨Complex.arg_mem_Ioc _, Real.arcsin_mem_Icc _, ?_⟩
  · exact ⟨by show -Real.pi < 0; linarith [Real.pi_pos], by show (0 : ℝ) ≤ Real.pi; linarith [Real.pi_pos]⟩
  · exact Complex.arg_mem_Ioc _

/-- Away from gimbal lock the angles themselves come back, in the principal ranges. -/
theorem C49_recover (hx : e.x.val ∈ Set.Ioc (-Real.pi) Real.pi)
    (hy : e.y.val ∈ Set.Ioo (-(Real.pi / 2)) (Real.pi / 2)) (hz : e.z.val ∈ Set.Ioc (-Real.pi) Real.pi) :
    Euler.fromMatrix e.toMatrix = e := by
  have hy' : Real.arcsin (Real.sin e.y.val) = e.y.val := Real.arcsin_sin hy.1.le hy.2.le
  have hc : 0 < Real.cos e.y.val := Real.cos_pos_of_mem_Ioo hy
  have arg : ∀ t ∈ Set.Ioc (-Real.pi) Real.pi,
      Complex.arg ⟨Real.cos e.y.val * Real.cos t, Real.cos e.y.val * Real.sin t⟩ = t := by
    intro t ht
    have := Complex.arg_mul_cos_add_sin_mul_I hc ht
    refine Eq.trans (congrArg _ ?_) this
    apply Complex.ext <;> simp [Complex.cos_ofReal_re, Complex.sin_ofReal_re]
  have h0' : ¬ sabs (Angle.cos (Angle.asin (e.toMatrix.data 2 0) : Radians ℝ)) = 0 := by
    rw [sabs_eq, abs_eq_zero]
    show ¬ Real.cos (Real.arcsin (Real.sin e.y.val)) = 0
    rw [hy']; exact hc.ne'
  simp only [Euler.fromMatrix, beq_iff_eq]
  rw [if_neg h0']
  ext
  · show Complex.arg ⟨Real.cos e.y.val * Real.cos e.x.val, -(-Real.cos e.y.val * Real.sin e.x.val)⟩ = _
    rw [neg_mul, neg_neg, arg _ hx]
  · exact hy'
  · show Complex.arg ⟨Real.cos e.y.val * Real.cos e.z.val, -(-Real.cos e.y.val * Real.sin e.z.val)⟩ = _
    rw [neg_mul, neg_neg, arg _ hz]

/-- In gimbal lock (yaw a quarter turn up) only the sum of roll and pitch is determined; it is returned as
the roll. -/
theorem C49_gimbal_lock (x z : ℝ) : Euler.toMatrix (⟨⟨x⟩, ⟨Real.pi / 2⟩, ⟨z⟩⟩ : Euler (Radians ℝ)) =
    Euler.toMatrix (⟨⟨x + z⟩, ⟨Real.pi / 2⟩, ⟨0⟩⟩ : Euler (Radians ℝ)) := by
  rw [Euler.toMatrix_eq, Euler.toMatrix_eq]
  apply ext3 <;> simp [Real.sin_add, Real.cos_add] <;> ring

/-! ### the exact test for gimbal lock

The code tests `cos(yaw) == 0` exactly. With any cosine for which the cosine of the computed arc sine of one is
not exactly zero - as is the case for the machine functions, where it is about 6e-17 - the test never succeeds,
and all rotations in gimbal lock are given the same angles, although they are different rotations. -/

theorem C49_gimbal_lock_inexact {S : Type*} [Zero S] [One S] [Add S] [Sub S] [Mul S] [Div S] [Neg S] [NatCast S]
    [FloatFns S] [SAbs S] [BEq S] (hcos : (sabs (fcos (fasin (1 : S))) == 0) = false)
    (f g f' g' b c b' c' : S) :
    Euler.fromMatrix (new3x3 0 b c 0 f g 1 0 0) = Euler.fromMatrix (new3x3 0 b' c' 0 f' g' 1 0 0) := by
  have h : ∀ f g b c : S, (sabs (Angle.cos (Angle.asin ((new3x3 0 b c 0 f g 1 0 0).data 2 0) : Radians S)) == 0) = false :=
    fun _ _ _ _ => hcos
  simp only [Euler.fromMatrix]
  rw [h, h]; rfl

/-- so no such function inverts `to_matrix`: the half turn and the identity about z, after a quarter turn of yaw -/
example : Euler.toMatrix (⟨⟨0⟩, ⟨Real.pi / 2⟩, ⟨0⟩⟩ : Euler (Radians ℝ)) = new3x3 0 0 (-1) 0 1 0 1 0 0 ∧
    Euler.toMatrix (⟨⟨Real.pi⟩, ⟨Real.pi / 2⟩, ⟨0⟩⟩ : Euler (Radians ℝ)) = new3x3 0 0 1 0 (-1) 0 1 0 0 := by
  constructor <;> rw [Euler.toMatrix_eq] <;> apply ext3 <;> simp

/-- functions differing from the exact ones by a small error in the cosine meet the hypothesis -/
example : ∃ F : FloatFns ℝ, (∀ x, |F.fcos x - Real.cos x| ≤ 1 / 10 ^ 15) ∧ sabs (F.fcos (F.fasin (1 : ℝ))) ≠ 0 := by
  refine ⟨{ (inferInstance : FloatFns ℝ) with fcos := fun x => Real.cos x + 1 / 10 ^ 16 }, fun x => ?_, ?_⟩
  · show |Real.cos x + 1 / 10 ^ 16 - Real.cos x| ≤ _
    rw [add_sub_cancel_left, abs_of_pos] <;> norm_num
  · rw [sabs_eq, abs_ne_zero]
    show Real.cos (Real.arcsin 1) + 1 / 10 ^ 16 ≠ 0
    rw [Real.arcsin_one, Real.cos_pi_div_two]; norm_num

example : Spec.IsRotation (new3x3 0 1 0 0 0 1 1 0 0 : Mat ℝ 3 3) := by
  apply Spec.IsRotation.of_transpose_mul
  · apply ext3 <;> simp [mul_data, Fin.sum_univ_three]
  · rw [← C17_det3]; simp [determinant3]

end Cgl

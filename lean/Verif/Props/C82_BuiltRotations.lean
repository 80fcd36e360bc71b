import Verif.Props.C79_Chains
import Verif.Props.C26_Rotation
import Verif.Props.C54_Rotation
import Verif.Props.C43_QuaternionAxisAngle
import Verif.Spec.FloatAngle
import Verif.Lemmas.Grid
import Mathlib.Analysis.SpecialFunctions.Trigonometric.Bounds

/-! # C82 - rotations built from angles in floating point

The matrices, quaternions and complex numbers the constructors compute, for any library whose sine and cosine are
accurate to `ε`, are compared with the exact rotations by the angle given. -/

namespace Cgl
open Mat Finset Rounding

variable {ρ : Rounding} {ι : Type*}

/-- A library of functions whose sine and cosine are accurate to `ε` and lie between `-1` and `1`. -/
structure Spec.TrigWithin (ρ : Rounding) [FloatFns (Fl ρ)] (ε : ℝ) : Prop where
  sin : ∀ x : Fl ρ, |(fsin x).val - Real.sin x.val| ≤ ε
  cos : ∀ x : Fl ρ, |(fcos x).val - Real.cos x.val| ≤ ε
  sin_le : ∀ x : Fl ρ, |(fsin x).val| ≤ 1
  cos_le : ∀ x : Fl ρ, |(fcos x).val| ≤ 1

theorem fl_abs_le_one {x : ℝ} (h : |x| ≤ 1) : |ρ.fl x| ≤ 1 := by
  rw [abs_le] at h ⊢
  have h1 := ρ.mono _ _ h.1
  have h2 := ρ.mono _ _ h.2
  rw [ρ.neg, ρ.one] at h1; rw [ρ.one] at h2
  exact ⟨h1, h2⟩

/-- There is such a library: one whose sine and cosine are correctly rounded. -/
theorem C82_correctly_rounded : Spec.TrigWithin ρ (ρ.u + ρ.tiny) := by
  have key : ∀ x : ℝ, |x| ≤ 1 → |ρ.fl x - x| ≤ ρ.u + ρ.tiny := fun x hx =>
    (ρ.err x).trans (by nlinarith [ρ.u_nonneg])
  exact ⟨fun x => key _ (Real.abs_sin_le_one _), fun x => key _ (Real.abs_cos_le_one _),
    fun x => fl_abs_le_one (Real.abs_sin_le_one _), fun x => fl_abs_le_one (Real.abs_cos_le_one _)⟩

namespace Spec.TrigWithin
variable [FloatFns (Fl ρ)] {ε : ℝ} (hF : Spec.TrigWithin ρ ε)
include hF
theorem nonneg : 0 ≤ ε := (abs_nonneg _).trans (hF.sin 0)
theorem sq (x : Fl ρ) : ((fcos x).val - Real.cos x.val) ^ 2 + ((fsin x).val - Real.sin x.val) ^ 2 ≤ (Real.sqrt 2 * ε) ^ 2 := by
  rw [mul_pow, Real.sq_sqrt (by norm_num)]
  have h1 := pow_le_pow_left₀ (abs_nonneg _) (hF.cos x) 2
  have h2 := pow_le_pow_left₀ (abs_nonneg _) (hF.sin x) 2
  rw [sq_abs] at h1 h2
  linarith
end Spec.TrigWithin

/-! ### rotations about a coordinate axis -/

theorem exactMat_data {R C : ℕ} (A : Mat (Fl ρ) R C) (c r) : (Spec.exactMat A).data c r = (A.data c r).val := by
  simp [Spec.exactMat]

theorem norm_le_of_sq {n : ℕ} {x v : Vec ℝ n} {k : ℝ} (hk : 0 ≤ k) (h : ∑ i, x.data i ^ 2 ≤ k ^ 2 * ∑ i, v.data i ^ 2) :
    x.norm ≤ k * v.norm := by
  refine abs_le_of_sq_le_sq' ?_ (mul_nonneg hk v.norm_nonneg) |>.2
  rw [mul_pow, Vec.norm_sq, Vec.norm_sq, Vec.normSquared, Vec.normSquared, Vec.dot_eq_sum, Vec.dot_eq_sum]
  simpa only [← pow_two] using h

section
variable [FloatFns (Fl ρ)] {ε : ℝ} (hF : Spec.TrigWithin ρ ε) (a : Radians (Fl ρ))
include hF

/-- The rotation of the plane: each image is off by at most `√2 ε` times its length. -/
theorem C82_angle2 (v : Vec ℝ 2) :
    ((Spec.exactMat (fromAngle2 a) - fromAngle2 ⟨a.val.val⟩) * v).norm ≤ Real.sqrt 2 * ε * v.norm := by
  refine norm_le_of_sq (mul_nonneg (Real.sqrt_nonneg _) hF.nonneg) ?_
  have h := hF.sq a.val
  set c := (fcos a.val).val - Real.cos a.val.val with hc
  set s := (fsin a.val).val - Real.sin a.val.val with hs
  have e : (Spec.exactMat (fromAngle2 a) - fromAngle2 ⟨a.val.val⟩) = new2x2 c s (-s) c := by
    apply Mat.ext2 <;> rw [Mat.sub_data, exactMat_data]
    · rfl
    · rfl
    · rw [hs]
      show -(fsin a.val).val - -Real.sin a.val.val = -((fsin a.val).val - Real.sin a.val.val)
      ring
    · rfl
  rw [e]
  simp only [Mat.mulVec_data, Fin.sum_univ_two]
  refine le_trans (le_of_eq ?_) (mul_le_mul_of_nonneg_right h (by positivity))
  simp [new2x2]
  ring

/-- The rotation about the x-axis. -/
theorem C82_angle_x3 (v : Vec ℝ 3) :
    ((Spec.exactMat (fromAngleX3 a) - fromAngleX3 ⟨a.val.val⟩) * v).norm ≤ Real.sqrt 2 * ε * v.norm := by
  refine norm_le_of_sq (mul_nonneg (Real.sqrt_nonneg _) hF.nonneg) ?_
  have h := hF.sq a.val
  set c := (fcos a.val).val - Real.cos a.val.val with hc
  set s := (fsin a.val).val - Real.sin a.val.val with hs
  have hs' : -(fsin a.val).val - -Real.sin a.val.val = -s := by rw [hs]; ring
  have e : (Spec.exactMat (fromAngleX3 a) - fromAngleX3 ⟨a.val.val⟩) = new3x3 0 0 0 0 c s 0 (-s) c := by
    apply Mat.ext3 <;> rw [Mat.sub_data, exactMat_data] <;> first | rfl | exact sub_self (0 : ℝ) | exact sub_self (1 : ℝ) | exact hs'
  rw [e]
  simp only [Mat.mulVec_data, Fin.sum_univ_three]
  refine le_trans ?_ (mul_le_mul_of_nonneg_right h (by positivity))
  simp [new3x3]
  nlinarith [mul_nonneg (add_nonneg (sq_nonneg c) (sq_nonneg s)) (sq_nonneg (v.data 0)),
    mul_nonneg (add_nonneg (sq_nonneg c) (sq_nonneg s)) (sq_nonneg (v.data 1)),
    mul_nonneg (add_nonneg (sq_nonneg c) (sq_nonneg s)) (sq_nonneg (v.data 2))]
/-- The rotation about the y-axis. -/
theorem C82_angle_y3 (v : Vec ℝ 3) :
    ((Spec.exactMat (fromAngleY3 a) - fromAngleY3 ⟨a.val.val⟩) * v).norm ≤ Real.sqrt 2 * ε * v.norm := by
  refine norm_le_of_sq (mul_nonneg (Real.sqrt_nonneg _) hF.nonneg) ?_
  have h := hF.sq a.val
  set c := (fcos a.val).val - Real.cos a.val.val with hc
  set s := (fsin a.val).val - Real.sin a.val.val with hs
  have hs' : -(fsin a.val).val - -Real.sin a.val.val = -s := by rw [hs]; ring
  have e : (Spec.exactMat (fromAngleY3 a) - fromAngleY3 ⟨a.val.val⟩) = new3x3 c 0 (-s) 0 0 0 s 0 c := by
    apply Mat.ext3 <;> rw [Mat.sub_data, exactMat_data] <;> first | rfl | exact sub_self (0 : ℝ) | exact sub_self (1 : ℝ) | exact hs'
  rw [e]
  simp only [Mat.mulVec_data, Fin.sum_univ_three]
  refine le_trans ?_ (mul_le_mul_of_nonneg_right h (by positivity))
  simp [new3x3]
  nlinarith [mul_nonneg (add_nonneg (sq_nonneg c) (sq_nonneg s)) (sq_nonneg (v.data 0)),
    mul_nonneg (add_nonneg (sq_nonneg c) (sq_nonneg s)) (sq_nonneg (v.data 1)),
    mul_nonneg (add_nonneg (sq_nonneg c) (sq_nonneg s)) (sq_nonneg (v.data 2))]
/-- The rotation about the z-axis. -/
theorem C82_angle_z3 (v : Vec ℝ 3) :
    ((Spec.exactMat (fromAngleZ3 a) - fromAngleZ3 ⟨a.val.val⟩) * v).norm ≤ Real.sqrt 2 * ε * v.norm := by
  refine norm_le_of_sq (mul_nonneg (Real.sqrt_nonneg _) hF.nonneg) ?_
  have h := hF.sq a.val
  set c := (fcos a.val).val - Real.cos a.val.val with hc
  set s := (fsin a.val).val - Real.sin a.val.val with hs
  have hs' : -(fsin a.val).val - -Real.sin a.val.val = -s := by rw [hs]; ring
  have e : (Spec.exactMat (fromAngleZ3 a) - fromAngleZ3 ⟨a.val.val⟩) = new3x3 c s 0 (-s) c 0 0 0 0 := by
    apply Mat.ext3 <;> rw [Mat.sub_data, exactMat_data] <;> first | rfl | exact sub_self (0 : ℝ) | exact sub_self (1 : ℝ) | exact hs'
  rw [e]
  simp only [Mat.mulVec_data, Fin.sum_univ_three]
  refine le_trans ?_ (mul_le_mul_of_nonneg_right h (by positivity))
  simp [new3x3]
  nlinarith [mul_nonneg (add_nonneg (sq_nonneg c) (sq_nonneg s)) (sq_nonneg (v.data 0)),
    mul_nonneg (add_nonneg (sq_nonneg c) (sq_nonneg s)) (sq_nonneg (v.data 1)),
    mul_nonneg (add_nonneg (sq_nonneg c) (sq_nonneg s)) (sq_nonneg (v.data 2))]
/-- The rotation of the plane in homogeneous coordinates. -/
theorem C82_affine_angle3 (v : Vec ℝ 3) :
    ((Spec.exactMat (fromAffineAngle3 a) - fromAffineAngle3 ⟨a.val.val⟩) * v).norm ≤ Real.sqrt 2 * ε * v.norm := by
  refine norm_le_of_sq (mul_nonneg (Real.sqrt_nonneg _) hF.nonneg) ?_
  have h := hF.sq a.val
  set c := (fcos a.val).val - Real.cos a.val.val with hc
  set s := (fsin a.val).val - Real.sin a.val.val with hs
  have hs' : -(fsin a.val).val - -Real.sin a.val.val = -s := by rw [hs]; ring
  have e : (Spec.exactMat (fromAffineAngle3 a) - fromAffineAngle3 ⟨a.val.val⟩) = new3x3 c s 0 (-s) c 0 0 0 0 := by
    apply Mat.ext3 <;> rw [Mat.sub_data, exactMat_data] <;> first | rfl | exact sub_self (0 : ℝ) | exact sub_self (1 : ℝ) | exact hs'
  rw [e]
  simp only [Mat.mulVec_data, Fin.sum_univ_three]
  refine le_trans ?_ (mul_le_mul_of_nonneg_right h (by positivity))
  simp [new3x3]
  nlinarith [mul_nonneg (add_nonneg (sq_nonneg c) (sq_nonneg s)) (sq_nonneg (v.data 0)),
    mul_nonneg (add_nonneg (sq_nonneg c) (sq_nonneg s)) (sq_nonneg (v.data 1)),
    mul_nonneg (add_nonneg (sq_nonneg c) (sq_nonneg s)) (sq_nonneg (v.data 2))]
/-- The rotations of space in homogeneous coordinates. -/
theorem C82_affine_angle_x4 (v : Vec ℝ 4) :
    ((Spec.exactMat (fromAffineAngleX4 a) - fromAffineAngleX4 ⟨a.val.val⟩) * v).norm ≤ Real.sqrt 2 * ε * v.norm := by
  refine norm_le_of_sq (mul_nonneg (Real.sqrt_nonneg _) hF.nonneg) ?_
  have h := hF.sq a.val
  set c := (fcos a.val).val - Real.cos a.val.val with hc
  set s := (fsin a.val).val - Real.sin a.val.val with hs
  have hs' : -(fsin a.val).val - -Real.sin a.val.val = -s := by rw [hs]; ring
  have e : (Spec.exactMat (fromAffineAngleX4 a) - fromAffineAngleX4 ⟨a.val.val⟩) = new4x4 0 0 0 0 0 c s 0 0 (-s) c 0 0 0 0 0 := by
    apply Mat.ext4 <;> rw [Mat.sub_data, exactMat_data] <;> first | rfl | exact sub_self (0 : ℝ) | exact sub_self (1 : ℝ) | exact hs'
  rw [e]
  simp only [Mat.mulVec_data, Fin.sum_univ_four]
  refine le_trans ?_ (mul_le_mul_of_nonneg_right h (by positivity))
  simp [new4x4]
  nlinarith [mul_nonneg (add_nonneg (sq_nonneg c) (sq_nonneg s)) (sq_nonneg (v.data 0)),
    mul_nonneg (add_nonneg (sq_nonneg c) (sq_nonneg s)) (sq_nonneg (v.data 1)),
    mul_nonneg (add_nonneg (sq_nonneg c) (sq_nonneg s)) (sq_nonneg (v.data 2)), mul_nonneg (add_nonneg (sq_nonneg c) (sq_nonneg s)) (sq_nonneg (v.data 3))]
/-- about the y-axis -/
theorem C82_affine_angle_y4 (v : Vec ℝ 4) :
    ((Spec.exactMat (fromAffineAngleY4 a) - fromAffineAngleY4 ⟨a.val.val⟩) * v).norm ≤ Real.sqrt 2 * ε * v.norm := by
  refine norm_le_of_sq (mul_nonneg (Real.sqrt_nonneg _) hF.nonneg) ?_
  have h := hF.sq a.val
  set c := (fcos a.val).val - Real.cos a.val.val with hc
  set s := (fsin a.val).val - Real.sin a.val.val with hs
  have hs' : -(fsin a.val).val - -Real.sin a.val.val = -s := by rw [hs]; ring
  have e : (Spec.exactMat (fromAffineAngleY4 a) - fromAffineAngleY4 ⟨a.val.val⟩) = new4x4 c 0 (-s) 0 0 0 0 0 s 0 c 0 0 0 0 0 := by
    apply Mat.ext4 <;> rw [Mat.sub_data, exactMat_data] <;> first | rfl | exact sub_self (0 : ℝ) | exact sub_self (1 : ℝ) | exact hs'
  rw [e]
  simp only [Mat.mulVec_data, Fin.sum_univ_four]
  refine le_trans ?_ (mul_le_mul_of_nonneg_right h (by positivity))
  simp [new4x4]
  nlinarith [mul_nonneg (add_nonneg (sq_nonneg c) (sq_nonneg s)) (sq_nonneg (v.data 0)),
    mul_nonneg (add_nonneg (sq_nonneg c) (sq_nonneg s)) (sq_nonneg (v.data 1)),
    mul_nonneg (add_nonneg (sq_nonneg c) (sq_nonneg s)) (sq_nonneg (v.data 2)), mul_nonneg (add_nonneg (sq_nonneg c) (sq_nonneg s)) (sq_nonneg (v.data 3))]
/-- about the z-axis -/
theorem C82_affine_angle_z4 (v : Vec ℝ 4) :
    ((Spec.exactMat (fromAffineAngleZ4 a) - fromAffineAngleZ4 ⟨a.val.val⟩) * v).norm ≤ Real.sqrt 2 * ε * v.norm := by
  refine norm_le_of_sq (mul_nonneg (Real.sqrt_nonneg _) hF.nonneg) ?_
  have h := hF.sq a.val
  set c := (fcos a.val).val - Real.cos a.val.val with hc
  set s := (fsin a.val).val - Real.sin a.val.val with hs
  have hs' : -(fsin a.val).val - -Real.sin a.val.val = -s := by rw [hs]; ring
  have e : (Spec.exactMat (fromAffineAngleZ4 a) - fromAffineAngleZ4 ⟨a.val.val⟩) = new4x4 c s 0 0 (-s) c 0 0 0 0 0 0 0 0 0 0 := by
    apply Mat.ext4 <;> rw [Mat.sub_data, exactMat_data] <;> first | rfl | exact sub_self (0 : ℝ) | exact sub_self (1 : ℝ) | exact hs'
  rw [e]
  simp only [Mat.mulVec_data, Fin.sum_univ_four]
  refine le_trans ?_ (mul_le_mul_of_nonneg_right h (by positivity))
  simp [new4x4]
  nlinarith [mul_nonneg (add_nonneg (sq_nonneg c) (sq_nonneg s)) (sq_nonneg (v.data 0)),
    mul_nonneg (add_nonneg (sq_nonneg c) (sq_nonneg s)) (sq_nonneg (v.data 1)),
    mul_nonneg (add_nonneg (sq_nonneg c) (sq_nonneg s)) (sq_nonneg (v.data 2)), mul_nonneg (add_nonneg (sq_nonneg c) (sq_nonneg s)) (sq_nonneg (v.data 3))]

/-- The complex number of an angle. -/
theorem C82_complex : (Spec.exactCx (Cx.fromAngle a) - Cx.fromAngle ⟨a.val.val⟩).norm ≤ Real.sqrt 2 * ε := by
  have h := hF.sq a.val
  have e1 : (Spec.exactCx (Cx.fromAngle a)).re = (fcos a.val).val := congrArg Fl.val (Fl.one_mul (fcos a.val))
  have e2 : (Spec.exactCx (Cx.fromAngle a)).im = (fsin a.val).val := congrArg Fl.val (Fl.one_mul (fsin a.val))
  have e3 : (Cx.fromAngle ⟨a.val.val⟩ : Cx ℝ).re = Real.cos a.val.val := one_mul (Real.cos a.val.val)
  have e4 : (Cx.fromAngle ⟨a.val.val⟩ : Cx ℝ).im = Real.sin a.val.val := one_mul (Real.sin a.val.val)
  show Real.sqrt (((Spec.exactCx (Cx.fromAngle a)).re - (Cx.fromAngle ⟨a.val.val⟩ : Cx ℝ).re) *
      ((Spec.exactCx (Cx.fromAngle a)).re - (Cx.fromAngle ⟨a.val.val⟩ : Cx ℝ).re) +
    ((Spec.exactCx (Cx.fromAngle a)).im - (Cx.fromAngle ⟨a.val.val⟩ : Cx ℝ).im) *
      ((Spec.exactCx (Cx.fromAngle a)).im - (Cx.fromAngle ⟨a.val.val⟩ : Cx ℝ).im)) ≤ _
  rw [e1, e2, e3, e4, ← pow_two, ← pow_two]
  exact Real.sqrt_le_iff.mpr ⟨mul_nonneg (Real.sqrt_nonneg _) hF.nonneg, h⟩

end

/-! ### an arbitrary axis -/

/-- one rounding of a number no larger than `B ≥ 1` -/
theorem fl_err_le {x B : ℝ} (h : |x| ≤ B) (hB : 1 ≤ B) : |ρ.fl x - x| ≤ (ρ.u + ρ.tiny) * B := by
  have h1 := ρ.err x
  have h2 := mul_le_mul_of_nonneg_left h ρ.u_nonneg
  have h3 := mul_le_mul_of_nonneg_left hB ρ.tiny_nonneg
  linarith

theorem abs_le_of_err {x y B e : ℝ} (h : |x - y| ≤ e) (hy : |y| ≤ B) : |x| ≤ B + e := by
  calc |x| = |y + (x - y)| := by ring_nf
    _ ≤ |y| + |x - y| := abs_add_le _ _
    _ ≤ _ := add_le_add hy h

theorem abs_mul_le {x y A B : ℝ} (hx : |x| ≤ A) (hy : |y| ≤ B) : |x * y| ≤ A * B := by
  rw [abs_mul]; exact mul_le_mul hx hy (abs_nonneg _) ((abs_nonneg _).trans hx)

/-- the common part of the entries, `(1 - c) * a * b` -/
theorem omc_err (h2 : ρ.fl 2 = 2) {w : ℝ} (hw : ρ.u + ρ.tiny = w) (hw1 : w ≤ 1 / 100) {c a b : Fl ρ} (hc : |c.val| ≤ 1)
    (ha : |a.val| ≤ 9 / 8) (hb : |b.val| ≤ 9 / 8) :
    |((1 - c) * a * b).val - (1 - c.val) * a.val * b.val| ≤ 8 * w := by
  have w0 : 0 ≤ w := by have := ρ.u_nonneg; have := ρ.tiny_nonneg; linarith
  have hc' := abs_le.mp hc
  set o := (1 - c).val with ho
  have o1 : |o - (1 - c.val)| ≤ w * 2 := by
    rw [← hw]; exact fl_err_le (x := 1 - c.val) (abs_le.mpr ⟨by linarith, by linarith⟩) (by norm_num)
  have o2 : |o| ≤ 2 := by
    have h3 := ρ.mono _ _ (show 1 - c.val ≤ 2 by linarith)
    have h4 := ρ.nonneg (show 0 ≤ 1 - c.val by linarith)
    rw [h2] at h3
    exact abs_le.mpr ⟨by change -2 ≤ ρ.fl (1 - c.val); linarith, h3⟩
  set p := ((1 - c) * a).val with hp
  have p1 : |p - o * a.val| ≤ w * (9 / 4) := by
    rw [← hw]; exact fl_err_le ((abs_mul_le o2 ha).trans (by norm_num)) (by norm_num)
  have p2 : |p| ≤ 9 / 4 + w * (9 / 4) := abs_le_of_err p1 ((abs_mul_le o2 ha).trans (by norm_num))
  have p3 : |p| ≤ 73 / 32 := p2.trans (by linarith)
  set q := ((1 - c) * a * b).val with hq
  have q1 : |q - p * b.val| ≤ w * (73 / 32 * (9 / 8)) := by
    rw [← hw]; exact fl_err_le (abs_mul_le p3 hb) (by norm_num)
  have e : q - (1 - c.val) * a.val * b.val = (q - p * b.val) + (p - o * a.val) * b.val + (o - (1 - c.val)) * a.val * b.val := by
    ring
  rw [e]
  have t1 := abs_mul_le p1 hb
  have t2 := abs_mul_le (abs_mul_le o1 ha) hb
  refine (abs_add_le _ _).trans ?_
  have := abs_add_le (q - p * b.val) ((p - o * a.val) * b.val)
  linarith

section Axis
variable [FloatFns (Fl ρ)] {ε : ℝ}

/-- The entries of the matrix of a unit axis (given to accuracy `δ`) and an angle. -/
theorem C82_axis_angle_entries (hF : Spec.TrigWithin ρ ε) (h2 : ρ.fl 2 = 2) (hw1 : ρ.u + ρ.tiny ≤ 1 / 100)
    (axis : Unit' (Vec (Fl ρ) 3)) (n : Vec ℝ 3) (hn : n.norm = 1) {δ : ℝ} (hδ1 : δ ≤ 1 / 8)
    (ha : ∀ i, |(axis.value.data i).val - n.data i| ≤ δ) (a : Radians (Fl ρ)) (c r : Fin 3) :
    |((fromAxisAngle3 axis a).data c r).val - (fromAxisAngle3 ⟨n⟩ ⟨a.val.val⟩).data c r| ≤
      13 * (ρ.u + ρ.tiny) + 5 / 2 * ε + 21 / 4 * δ := by
  have ε0 := hF.nonneg
  have δ0 : 0 ≤ δ := (abs_nonneg _).trans (ha 0)
  have n1 : ∀ i, |n.data i| ≤ 1 := fun i => by
    have h : n.normSquared = 1 := by rw [← Vec.norm_sq, hn, one_pow]
    rw [Vec.normSquared, Vec.dot_eq_sum] at h
    have := single_le_sum (f := fun i => n.data i * n.data i) (fun j _ => mul_self_nonneg _) (mem_univ i)
    rw [h] at this
    exact abs_le_one_iff_mul_self_le_one.mpr this
  have a1 : ∀ i, |(axis.value.data i).val| ≤ 9 / 8 := fun i =>
    (abs_le_of_err (ha i) (n1 i)).trans (by linarith)
  set w := ρ.u + ρ.tiny with hw
  have w0 : 0 ≤ w := by have := ρ.u_nonneg; have := ρ.tiny_nonneg; linarith
  set C := fcos a.val with hC
  set S := fsin a.val with hS
  have cb : |C.val| ≤ 1 := hF.cos_le _
  have sb : |S.val| ≤ 1 := hF.sin_le _
  have omb : |1 - C.val| ≤ 2 := by have := abs_le.mp cb; exact abs_le.mpr ⟨by linarith, by linarith⟩
  have omB : |1 - Real.cos a.val.val| ≤ 2 := by
    have := abs_le.mp (Real.abs_cos_le_one a.val.val); exact abs_le.mpr ⟨by linarith, by linarith⟩
  -- exchanging the rounded data for the exact ones
  have pert : ∀ i j, |(1 - C.val) * (axis.value.data i).val * (axis.value.data j).val -
      (1 - Real.cos a.val.val) * n.data i * n.data j| ≤ 81 / 64 * ε + 17 / 4 * δ := by
    intro i j
    have e : (1 - C.val) * (axis.value.data i).val * (axis.value.data j).val - (1 - Real.cos a.val.val) * n.data i * n.data j =
        -((C.val - Real.cos a.val.val) * (axis.value.data i).val * (axis.value.data j).val) +
        (1 - Real.cos a.val.val) * ((axis.value.data i).val - n.data i) * (axis.value.data j).val +
        (1 - Real.cos a.val.val) * n.data i * ((axis.value.data j).val - n.data j) := by ring
    rw [e]
    have t1 := abs_mul_le (abs_mul_le (hF.cos a.val) (a1 i)) (a1 j)
    have t2 := abs_mul_le (abs_mul_le omB (ha i)) (a1 j)
    have t3 := abs_mul_le (abs_mul_le omB (n1 i)) (ha j)
    refine (abs_add_le _ _).trans ?_
    have := abs_add_le (-((C.val - Real.cos a.val.val) * (axis.value.data i).val * (axis.value.data j).val))
      ((1 - Real.cos a.val.val) * ((axis.value.data i).val - n.data i) * (axis.value.data j).val)
    rw [abs_neg] at this
    linarith
  have sb' : ∀ k, |S.val * (axis.value.data k).val| ≤ 9 / 8 := fun k => (abs_mul_le sb (a1 k)).trans (by norm_num)
  have serr : ∀ k, |(S * axis.value.data k).val - Real.sin a.val.val * n.data k| ≤ w * (9 / 8) + 9 / 8 * ε + δ := by
    intro k
    have e : (S * axis.value.data k).val - Real.sin a.val.val * n.data k =
        ((S * axis.value.data k).val - S.val * (axis.value.data k).val) +
        (S.val - Real.sin a.val.val) * (axis.value.data k).val +
        Real.sin a.val.val * ((axis.value.data k).val - n.data k) := by ring
    rw [e]
    have t1 : |(S * axis.value.data k).val - S.val * (axis.value.data k).val| ≤ w * (9 / 8) :=
      fl_err_le (sb' k) (by norm_num)
    have t2 := abs_mul_le (hF.sin a.val) (a1 k)
    have t3 := abs_mul_le (Real.abs_sin_le_one a.val.val) (ha k)
    refine (abs_add_le _ _).trans ?_
    have := abs_add_le ((S * axis.value.data k).val - S.val * (axis.value.data k).val)
      ((S.val - Real.sin a.val.val) * (axis.value.data k).val)
    linarith
  have exact2 : ∀ i j, |(1 - C.val) * (axis.value.data i).val * (axis.value.data j).val| ≤ 81 / 32 := fun i j =>
    (abs_mul_le (abs_mul_le omb (a1 i)) (a1 j)).trans (by norm_num)
  have qb : ∀ i j, |((1 - C) * axis.value.data i * axis.value.data j).val| ≤ 84 / 32 := fun i j =>
    (abs_le_of_err (omc_err h2 hw.symm hw1 cb (a1 i) (a1 j)) (exact2 i j)).trans (by linarith)
  have tb : ∀ k, |(S * axis.value.data k).val| ≤ 37 / 32 := fun k =>
    (abs_le_of_err (fl_err_le (sb' k) (by norm_num)) (sb' k)).trans (by linarith)
  have qerr : ∀ i j, |((1 - C) * axis.value.data i * axis.value.data j).val - (1 - Real.cos a.val.val) * n.data i * n.data j| ≤
      8 * w + 81 / 64 * ε + 17 / 4 * δ := by
    intro i j
    have := abs_sub_le ((1 - C) * axis.value.data i * axis.value.data j).val
      ((1 - C.val) * (axis.value.data i).val * (axis.value.data j).val) ((1 - Real.cos a.val.val) * n.data i * n.data j)
    have h3 := omc_err h2 hw.symm hw1 cb (a1 i) (a1 j)
    have h4 := pert i j
    linarith
  have diag : ∀ i, |((1 - C) * axis.value.data i * axis.value.data i + C).val -
      ((1 - Real.cos a.val.val) * n.data i * n.data i + Real.cos a.val.val)| ≤ 13 * w + 5 / 2 * ε + 21 / 4 * δ := by
    intro i
    set q := ((1 - C) * axis.value.data i * axis.value.data i) with hq
    have t1 : |(q + C).val - (q.val + C.val)| ≤ w * (84 / 32 + 1) :=
      fl_err_le ((abs_add_le _ _).trans (add_le_add (qb i i) cb)) (by norm_num)
    have t2 := qerr i i
    have t3 := hF.cos a.val
    have e : (q + C).val - ((1 - Real.cos a.val.val) * n.data i * n.data i + Real.cos a.val.val) =
        ((q + C).val - (q.val + C.val)) + (q.val - (1 - Real.cos a.val.val) * n.data i * n.data i) +
        (C.val - Real.cos a.val.val) := by ring
    rw [e]
    refine (abs_add_le _ _).trans ?_
    have := abs_add_le ((q + C).val - (q.val + C.val)) (q.val - (1 - Real.cos a.val.val) * n.data i * n.data i)
    linarith
  have plus : ∀ i j k, |((1 - C) * axis.value.data i * axis.value.data j + S * axis.value.data k).val -
      ((1 - Real.cos a.val.val) * n.data i * n.data j + Real.sin a.val.val * n.data k)| ≤ 13 * w + 5 / 2 * ε + 21 / 4 * δ := by
    intro i j k
    set q := ((1 - C) * axis.value.data i * axis.value.data j) with hq
    set t := S * axis.value.data k with ht
    have t1 : |(q + t).val - (q.val + t.val)| ≤ w * (84 / 32 + 37 / 32) :=
      fl_err_le ((abs_add_le _ _).trans (add_le_add (qb i j) (tb k))) (by norm_num)
    have t2 := qerr i j
    have t3 := serr k
    have e : (q + t).val - ((1 - Real.cos a.val.val) * n.data i * n.data j + Real.sin a.val.val * n.data k) =
        ((q + t).val - (q.val + t.val)) + (q.val - (1 - Real.cos a.val.val) * n.data i * n.data j) +
        (t.val - Real.sin a.val.val * n.data k) := by ring
    rw [e]
    refine (abs_add_le _ _).trans ?_
    have := abs_add_le ((q + t).val - (q.val + t.val)) (q.val - (1 - Real.cos a.val.val) * n.data i * n.data j)
    linarith
  have minus : ∀ i j k, |((1 - C) * axis.value.data i * axis.value.data j - S * axis.value.data k).val -
      ((1 - Real.cos a.val.val) * n.data i * n.data j - Real.sin a.val.val * n.data k)| ≤ 13 * w + 5 / 2 * ε + 21 / 4 * δ := by
    intro i j k
    set q := ((1 - C) * axis.value.data i * axis.value.data j) with hq
    set t := S * axis.value.data k with ht
    have t1 : |(q - t).val - (q.val - t.val)| ≤ w * (84 / 32 + 37 / 32) :=
      fl_err_le ((abs_sub _ _).trans (add_le_add (qb i j) (tb k))) (by norm_num)
    have t2 := qerr i j
    have t3 := serr k
    have e : (q - t).val - ((1 - Real.cos a.val.val) * n.data i * n.data j - Real.sin a.val.val * n.data k) =
        ((q - t).val - (q.val - t.val)) + (q.val - (1 - Real.cos a.val.val) * n.data i * n.data j) +
        -(t.val - Real.sin a.val.val * n.data k) := by ring
    rw [e]
    refine (abs_add_le _ _).trans ?_
    have := abs_add_le ((q - t).val - (q.val - t.val)) (q.val - (1 - Real.cos a.val.val) * n.data i * n.data j)
    rw [abs_neg]
    linarith
  fin_cases c <;> fin_cases r
  exacts [diag 0, plus 0 1 2, minus 0 2 1, minus 0 1 2, diag 1, plus 1 2 0, plus 0 2 1, minus 1 2 0, diag 2]

/-- The matrix of an axis and an angle: each image is off by at most the bound times its length. -/
theorem C82_axis_angle (hF : Spec.TrigWithin ρ ε) (h2 : ρ.fl 2 = 2) (hw1 : ρ.u + ρ.tiny ≤ 1 / 100)
    (axis : Unit' (Vec (Fl ρ) 3)) (n : Vec ℝ 3) (hn : n.norm = 1) {δ : ℝ} (hδ1 : δ ≤ 1 / 8)
    (ha : ∀ i, |(axis.value.data i).val - n.data i| ≤ δ) (a : Radians (Fl ρ)) (v : Vec ℝ 3) :
    ((Spec.exactMat (fromAxisAngle3 axis a) - fromAxisAngle3 ⟨n⟩ ⟨a.val.val⟩) * v).norm ≤
      (39 * (ρ.u + ρ.tiny) + 15 / 2 * ε + 63 / 4 * δ) * v.norm := by
  have h := C82_axis_angle_entries hF h2 hw1 axis n hn hδ1 ha a
  refine (norm_le_of_entries ((abs_nonneg _).trans (h 0 0)) (fun c r => ?_) v).trans (le_of_eq ?_)
  · rw [Mat.sub_data, exactMat_data]; exact h c r
  · push_cast; ring

/-! ### quaternions of an axis and an angle -/

/-- Halving is exact up to underflow. -/
structure Spec.Halves (ρ : Rounding) : Prop where
  two : ρ.fl 2 = 2
  half : ρ.fl (1 / 2) = 1 / 2
  halve : ∀ x, ρ.fl x = x → |ρ.fl (x / 2) - x / 2| ≤ ρ.tiny

theorem C82_halves {p : ℕ} {qmin : Option ℤ} (hp : 2 ≤ p) (hq : ∀ m ∈ qmin, m ≤ 1 - p) :
    Spec.Halves (nearestEven p qmin (by omega) hq) := by
  have h1p : (1 : ℝ) < 2 ^ p := one_lt_pow₀ one_lt_two (by omega)
  refine ⟨flEven_eq_of_grid ⟨1, 1, by norm_num, by simpa using h1p, fun k hk => ?_⟩,
    flEven_eq_of_grid ⟨1, -1, by norm_num, by simpa using h1p, fun k hk => ?_⟩, fun x hx => ?_⟩
  · have := hq k hk; omega
  · have := hq k hk; omega
  · obtain ⟨m, q, e, hm, hk⟩ := grid_of_flEven_eq (by omega) (show flEven p qmin x = x from hx)
    show |flEven p qmin (x / 2) - x / 2| ≤ tinyEven qmin
    have e2 : x / 2 = m * 2 ^ (q - 1) := by rw [e, zpow_sub₀ two_ne_zero, zpow_one]; ring
    by_cases hg : ∀ k ∈ qmin, k ≤ q - 1
    · rw [flEven_eq_of_grid ⟨m, q - 1, e2, hm, hg⟩, sub_self, abs_zero]; exact tinyEven_nonneg _
    · push Not at hg
      obtain ⟨k, hkq, hlt⟩ := hg
      obtain rfl : qmin = some k := hkq
      have hqk : q = k := by have := hk k rfl; omega
      rcases eq_or_ne x 0 with h0 | h0
      · rw [h0, zero_div, flEven_zero, sub_self, abs_zero]; exact tinyEven_nonneg _
      have hx2 : x / 2 ≠ 0 := by positivity
      refine (flEven_err p (some k) (x / 2)).trans ?_
      have h3 : (2 : ℝ) ^ Int.log 2 |x / 2| < 2 ^ (p + (q - 1) : ℤ) := by
        refine (two_zpow_log_le hx2).trans_lt ?_
        rw [e2, abs_mul, abs_of_pos (show (0 : ℝ) < 2 ^ (q - 1) by positivity), zpow_add₀ two_ne_zero, zpow_natCast]
        exact mul_lt_mul_of_pos_right hm (by positivity)
      have h4 := (zpow_lt_zpow_iff_right₀ one_lt_two).mp h3
      have h5 : lastBit p (some k) (Int.log 2 |x / 2|) = k := by
        simp only [lastBit]; rw [max_eq_right]; omega
      rw [h5]; rfl

theorem quat_norm_le (q : Quat ℝ) {A B : ℝ} (hA : |q.s| ≤ A) (hB : 0 ≤ B)
    (hv : q.x ^ 2 + q.y ^ 2 + q.z ^ 2 ≤ B ^ 2) : q.norm ≤ A + B := by
  have hA0 := (abs_nonneg _).trans hA
  refine abs_le_of_sq_le_sq' ?_ (by linarith) |>.2
  rw [Quat.norm_sq, Quat.normSquared_eq]
  have := pow_le_pow_left₀ (abs_nonneg _) hA 2
  rw [sq_abs] at this
  nlinarith [mul_nonneg hA0 hB]

/-- The quaternion of a unit axis (given to accuracy `δ`) and an angle. -/
theorem C82_quaternion (hF : Spec.TrigWithin ρ ε) (h2 : Spec.Halves ρ) (axis : Unit' (Vec (Fl ρ) 3)) (n : Vec ℝ 3)
    (hn : n.norm = 1) {δ : ℝ} (ha : (axis.value.map Fl.val - n).norm ≤ δ) (a : Radians (Fl ρ)) :
    (Spec.exactQuat (Quat.fromAxisAngle axis a) - Quat.fromAxisAngle ⟨n⟩ ⟨a.val.val⟩).norm ≤
      2 * ε + 4 * ρ.tiny + (1 + δ) * ρ.u + δ := by
  have ε0 := hF.nonneg
  have δ0 : 0 ≤ δ := (Vec.norm_nonneg _).trans ha
  have u0 := ρ.u_nonneg
  have t0 := ρ.tiny_nonneg
  -- half the angle
  have hh : ((1 : Fl ρ) / (1 + 1)).val = 1 / 2 := by
    show ρ.fl (1 / ρ.fl (1 + 1)) = 1 / 2
    rw [one_add_one_eq_two, h2.two, h2.half]
  set half : Fl ρ := a.val * (1 / (1 + 1)) with hhalf
  have hv : |half.val - a.val.val / 2| ≤ ρ.tiny := by
    have e : half.val = ρ.fl (a.val.val / 2) := by
      rw [hhalf, Fl.mul_val, hh, mul_one_div]
    rw [e]; exact h2.halve _ a.val.rep
  set C := Real.cos (a.val.val / 2) with hC
  set S := Real.sin (a.val.val / 2) with hS
  have cerr : |(fcos half).val - C| ≤ ε + ρ.tiny := by
    have h3 := Real.abs_cos_sub_cos_le half.val (a.val.val / 2)
    have := abs_sub_le (fcos half).val (Real.cos half.val) C
    have := hF.cos half
    linarith
  have serr : |(fsin half).val - S| ≤ ε + ρ.tiny := by
    have h3 := Real.abs_sin_sub_sin_le half.val (a.val.val / 2)
    have := abs_sub_le (fsin half).val (Real.sin half.val) S
    have := hF.sin half
    linarith
  set s := (fsin half).val with hs
  have s1 : |s| ≤ 1 := hF.sin_le half
  set x := fun i => (axis.value.data i).val with hx
  have exactq : Quat.fromAxisAngle ⟨n⟩ ⟨a.val.val⟩ = (Quat.new C (n.data 0 * S) (n.data 1 * S) (n.data 2 * S) : Quat ℝ) := by
    rw [C43_formula]
    apply Quat.ext4 <;> simp [hC, hS]
  have comp : (Spec.exactQuat (Quat.fromAxisAngle axis a)) = (Quat.new (fcos half).val (ρ.fl (x 0 * s)) (ρ.fl (x 1 * s))
      (ρ.fl (x 2 * s)) : Quat ℝ) := by
    apply Quat.ext4 <;> rfl
  rw [exactq, comp]
  -- the vector part
  set d : Fin 3 → ℝ := fun i => ρ.fl (x i * s) - n.data i * S with hd
  let E : (Fin 3 → ℝ) → EuclideanSpace ℝ (Fin 3) := fun f => WithLp.toLp 2 f
  have hE : ∀ f, ‖E f‖ = (⟨f⟩ : Vec ℝ 3).norm := fun f => norm_toLp ⟨f⟩
  have nE : ‖E n.data‖ = 1 := by rw [hE]; exact hn
  have aE : ‖E (fun i => x i - n.data i)‖ ≤ δ := by
    rw [hE]; refine le_trans (le_of_eq ?_) ha
    congr 1; ext i; simp [hx]
  have xE : ‖E x‖ ≤ 1 + δ := by
    have : E x = E n.data + E (fun i => x i - n.data i) := by ext i; simp [E]
    rw [this]; exact (_root_.norm_add_le _ _).trans (by rw [nE]; linarith)
  have split : E d = E (fun i => ρ.fl (x i * s) - x i * s) + s • E (fun i => x i - n.data i) + (s - S) • E n.data := by
    ext i; simp [E, hd]; ring
  have rnd : ‖E (fun i => ρ.fl (x i * s) - x i * s)‖ ≤ ρ.u * (1 + δ) + 2 * ρ.tiny := by
    have key : ‖E (fun i => ρ.fl (x i * s) - x i * s)‖ ≤ ‖E (fun i => ρ.u * |x i|)‖ + ‖E (fun _ => ρ.tiny)‖ := by
      refine le_trans ?_ ((?_ : ‖E (fun i => ρ.u * |x i|) + E (fun _ => ρ.tiny)‖ ≤ _))
      · rw [EuclideanSpace.norm_eq, EuclideanSpace.norm_eq]
        refine Real.sqrt_le_sqrt (sum_le_sum fun i _ => ?_)
        refine pow_le_pow_left₀ (_root_.norm_nonneg _) ?_ 2
        have h3 := ρ.err (x i * s)
        have h4 : |x i * s| ≤ |x i| := by rw [abs_mul]; nlinarith [abs_nonneg (x i)]
        have h5 := mul_le_mul_of_nonneg_left h4 u0
        simp only [E, Real.norm_eq_abs, PiLp.add_apply]
        rw [abs_of_nonneg (add_nonneg (mul_nonneg u0 (abs_nonneg _)) t0)]
        linarith
      · exact _root_.norm_add_le _ _
    have k1 : ‖E (fun i => ρ.u * |x i|)‖ = ρ.u * ‖E x‖ := by
      have : E (fun i => ρ.u * |x i|) = ρ.u • E (fun i => |x i|) := by ext i; simp [E]
      rw [this, norm_smul, Real.norm_eq_abs, abs_of_nonneg u0]
      congr 1
      rw [EuclideanSpace.norm_eq, EuclideanSpace.norm_eq]; simp [E]
    have k2 : ‖E (fun _ => ρ.tiny)‖ ≤ 2 * ρ.tiny := by
      rw [EuclideanSpace.norm_eq]
      refine Real.sqrt_le_iff.mpr ⟨by linarith, ?_⟩
      simp [E]; nlinarith
    have := mul_le_mul_of_nonneg_left xE u0
    linarith
  have dE : ‖E d‖ ≤ ρ.u * (1 + δ) + 2 * ρ.tiny + δ + (ε + ρ.tiny) := by
    rw [split]
    refine (norm_add₃_le).trans ?_
    rw [norm_smul, norm_smul, nE, Real.norm_eq_abs, Real.norm_eq_abs, mul_one]
    have : |s| * ‖E (fun i => x i - n.data i)‖ ≤ 1 * δ := mul_le_mul s1 aE (_root_.norm_nonneg _) zero_le_one
    linarith
  have dsq : d 0 ^ 2 + d 1 ^ 2 + d 2 ^ 2 = ‖E d‖ ^ 2 := by
    rw [EuclideanSpace.norm_sq_eq]; simp [E, Fin.sum_univ_three]
  refine (quat_norm_le _ (A := ε + ρ.tiny) (B := ‖E d‖) ?_ (_root_.norm_nonneg _) ?_).trans (by linarith)
  · rw [Quat.sub_s]; exact cerr
  · rw [Quat.sub_x, Quat.sub_y, Quat.sub_z, ← dsq]; exact le_rfl

/-- Any number of rotations given by axes and angles, composed by quaternion products bracketed in any way. -/
theorem C82_quaternion_chain (hF : Spec.TrigWithin ρ ε) (h2 : Spec.Halves ρ) {δ : ℝ} (t : Spec.Bracketing ι)
    (axis : ι → Unit' (Vec (Fl ρ) 3)) (n : ι → Vec ℝ 3) (angle : ι → Radians (Fl ρ))
    (hn : ∀ i ∈ t.factors, (n i).norm = 1) (ha : ∀ i ∈ t.factors, ((axis i).value.map Fl.val - n i).norm ≤ δ) :
    (Spec.exactQuat (t.eval (· * ·) fun i => Quat.fromAxisAngle (axis i) (angle i)) -
      t.eval (· * ·) fun i => Quat.fromAxisAngle ⟨n i⟩ ⟨(angle i).val.val⟩).norm ≤
    (1 + (2 * ε + 4 * ρ.tiny + (1 + δ) * ρ.u + δ)) ^ t.size * (1 + (Spec.quatStep ρ + Spec.quatTiny ρ)) ^ (t.size - 1) - 1 :=
  C79_quaternion_chain t _ _
    (fun i hi => C43_unit _ _ (by rw [← Vec.norm_sq]; simp [hn i hi]))
    (fun i hi => C82_quaternion hF h2 (axis i) (n i) (hn i hi) (ha i hi) (angle i))

end Axis

/-! ### axes that were normalised -/

section NoUnderflow
variable (ht : ρ.tiny = 0)
include ht

/-- The direction of a non-zero vector, normalised. -/
theorem C82_axis {n : ℕ} (v : Vec (Fl ρ) n) (hv : v ≠ 0) (hn : (1 + ρ.u) ^ (n + 1) < 2) :
    (v.normalize.map Fl.val - (v.map Fl.val).normalize).norm ≤ (1 + ρ.u) ^ 2 / (2 - (1 + ρ.u) ^ (n + 1)) - 1 := by
  set K := (1 + ρ.u) ^ 2 / (2 - (1 + ρ.u) ^ (n + 1)) - 1 with hK
  have hK0 : 0 ≤ K := (abs_nonneg _).trans (C67_normalize ht v hv hn)
  have hv' : v.map Fl.val ≠ 0 := fun h => hv (by
    ext i : 2
    have := congrArg (fun w : Vec ℝ n => w.data i) h
    exact Fl.ext (by simpa using this))
  have hnorm : (v.map Fl.val).norm = Real.sqrt (∑ i, (v.data i).val ^ 2) := by
    rw [Vec.norm_def, Vec.normSquared, Vec.dot_eq_sum]; simp [pow_two]
  have h := norm_le_of_sq (x := v.normalize.map Fl.val - (v.map Fl.val).normalize) (v := (v.map Fl.val).normalize) hK0 (by
    rw [mul_sum]
    refine sum_le_sum fun i _ => ?_
    have hc := C67_normalize_component ht v hv hn i
    have e : (v.map Fl.val).normalize.data i = (v.data i).val / Real.sqrt (∑ i, (v.data i).val ^ 2) := by
      rw [Vec.normalize, Vec.mulS_data, hnorm]; simp [div_eq_mul_inv]
    have e2 : (v.normalize.map Fl.val - (v.map Fl.val).normalize).data i =
        (v.normalize.data i).val - (v.data i).val / Real.sqrt (∑ i, (v.data i).val ^ 2) := by
      rw [Vec.sub_data, e]; simp
    rw [e2, e, ← mul_pow, ← sq_abs, ← sq_abs (K * _), abs_mul, abs_of_nonneg hK0]
    exact pow_le_pow_left₀ (abs_nonneg _) hc 2)
  rwa [Vec.normalize_norm hv', mul_one] at h

/-! ### from quaternions to matrices -/

/-- the factor `2 / |q|^2` -/
theorem toMatrix_scale (h2 : ρ.fl 2 = 2) (hu : (1 + ρ.u) ^ 4 ≤ 8 / 5) (q : Quat (Fl ρ)) (hq : Spec.exactQuat q ≠ 0) :
    NearBy ρ 9 (2 / (Spec.exactQuat q).normSquared) ((1 + 1) / (Spec.exactQuat q).normSquared)
      (((1 : Fl ρ) + 1) / q.normSquared).val := by
  set N := (Spec.exactQuat q).normSquared with hN
  have hN0 : 0 < N := by
    rw [hN, ← Quat.norm_sq]; have := Quat.norm_pos hq; positivity
  have hM := C67_norm_squared ht q.coords
  have e : ∑ i, (q.coords.data i).val ^ 2 = N := by
    rw [hN, Quat.normSquared, Vec.normSquared, Vec.dot_eq_sum]; exact sum_congr rfl fun i _ => pow_two _
  rw [e] at hM
  set M := q.coords.normSquared.val with hMd
  set y := (1 + ρ.u) ^ 4 with hy
  have u0 := ρ.u_nonneg
  have y1 : 1 ≤ y := one_le_pow₀ (by linarith)
  have hM' := abs_le.mp hM
  have M1 : (2 - y) * N ≤ M := by nlinarith
  have M2 : M ≤ y * N := by nlinarith
  have hM0 : 0 < M := lt_of_lt_of_le (mul_pos (by linarith) hN0) M1
  have hs : (((1 : Fl ρ) + 1) / q.normSquared).val = ρ.fl (2 / M) := by
    show ρ.fl (ρ.fl (1 + 1) / M) = _
    rw [one_add_one_eq_two, h2]
  rw [hs, one_add_one_eq_two]
  have hfl := abs_le.mp (err0 ht (2 / M))
  rw [abs_of_pos (show 0 < 2 / M by positivity)] at hfl
  have up : 2 / M ≤ y ^ 2 * (2 / N) := by
    rw [div_le_iff₀ hM0]
    have h3 : 1 ≤ y ^ 2 * (2 - y) := by nlinarith [mul_nonneg (sub_nonneg.mpr y1) (show 0 ≤ 1 + y - y ^ 2 by nlinarith)]
    have h4 : y ^ 2 * (2 / N) * ((2 - y) * N) = 2 * (y ^ 2 * (2 - y)) := by field_simp
    have h5 : y ^ 2 * (2 / N) * ((2 - y) * N) ≤ y ^ 2 * (2 / N) * M := mul_le_mul_of_nonneg_left M1 (by positivity)
    linarith
  have lo : (2 - y) * (2 / N) ≤ 2 / M := by
    rw [le_div_iff₀ hM0]
    have h3 : (2 - y) * y ≤ 1 := by nlinarith [sq_nonneg (y - 1)]
    have h4 : (2 - y) * (2 / N) * (y * N) = 2 * ((2 - y) * y) := by field_simp
    have h5 : (2 - y) * (2 / N) * M ≤ (2 - y) * (2 / N) * (y * N) :=
      mul_le_mul_of_nonneg_left M2 (mul_nonneg (by linarith) (by positivity))
    linarith
  have hz : 0 < 2 / N := by positivity
  have e9 : (1 + ρ.u) ^ 9 = y ^ 2 * (1 + ρ.u) := by rw [hy]; ring
  refine ⟨le_of_eq (abs_of_pos hz), ?_⟩
  rw [e9, abs_le]
  have u1 := ρ.u_le_one
  constructor
  · have h6 : (1 - ρ.u) * ((2 - y) * (2 / N)) ≤ (1 - ρ.u) * (2 / M) := mul_le_mul_of_nonneg_left lo (by linarith)
    have h8 : 0 ≤ ρ.u * (y ^ 2 + y - 2) := mul_nonneg u0 (by nlinarith)
    have h7 : 0 ≤ (y ^ 2 * (1 + ρ.u) - 1 - 1 + (1 - ρ.u) * (2 - y)) * (2 / N) := mul_nonneg (by nlinarith) hz.le
    nlinarith
  · have h6 : (1 + ρ.u) * (2 / M) ≤ (1 + ρ.u) * (y ^ 2 * (2 / N)) := mul_le_mul_of_nonneg_left up (by linarith)
    nlinarith

/-- The entries of the matrix of a quaternion. -/
theorem C82_to_matrix_entries (h2 : ρ.fl 2 = 2) (hu : (1 + ρ.u) ^ 4 ≤ 8 / 5) (q : Quat (Fl ρ)) (hq : Spec.exactQuat q ≠ 0)
    (c r : Fin 3) : |(q.toMatrix.data c r).val - (Spec.exactQuat q).toMatrix.data c r| ≤
      (if c = r then 3 else 1) * ((1 + ρ.u) ^ 13 - 1) := by
  have hs := toMatrix_scale ht h2 hu q hq
  have hN0 : 0 < (Spec.exactQuat q).normSquared := by
    rw [← Quat.norm_sq]; have := Quat.norm_pos hq; positivity
  set N := (Spec.exactQuat q).normSquared with hN
  have eN : (q.coords.data 0).val * (q.coords.data 0).val + (q.coords.data 1).val * (q.coords.data 1).val +
      (q.coords.data 2).val * (q.coords.data 2).val + (q.coords.data 3).val * (q.coords.data 3).val = N := by
    rw [hN, Quat.normSquared_eq]; rfl
  set s := ((1 : Fl ρ) + 1) / q.normSquared with hsd
  have hx := fun i => NearBy.exact (ρ := ρ) (q.coords.data i).val
  have t := fun i j => (hs.mul ht (hx i)).mul ht (hx j)
  have u0 := ρ.u_nonneg
  have g0 : 0 ≤ (1 + ρ.u) ^ 13 - 1 := by linarith [one_le_pow₀ (n := 13) (show 1 ≤ 1 + ρ.u by linarith)]
  have A1 : ∀ i j, 2 / N * |(q.coords.data i).val| * |(q.coords.data j).val| =
      2 / N * (|(q.coords.data i).val| * |(q.coords.data j).val|) := fun i j => by ring
  have sq := fun i => abs_mul_abs_self (q.coords.data i).val
  -- diagonal
  have diag : ∀ i j : Fin 4, |(q.coords.data i).val| * |(q.coords.data i).val| + |(q.coords.data j).val| * |(q.coords.data j).val| ≤ N →
      |(1 - s * q.coords.data i * q.coords.data i - s * q.coords.data j * q.coords.data j).val -
        (1 - (1 + 1) / N * (q.coords.data i).val * (q.coords.data i).val -
          (1 + 1) / N * (q.coords.data j).val * (q.coords.data j).val)| ≤ 3 * ((1 + ρ.u) ^ 13 - 1) := by
    intro i j hij
    have h := (((NearBy.exact (ρ := ρ) 1).sub ht (t i i)).sub ht (t j j)).2
    refine le_trans h ?_
    rw [mul_comm]
    refine mul_le_mul_of_nonneg_right ?_ g0
    rw [A1, A1, abs_one, add_assoc, ← mul_add]
    have := mul_le_mul_of_nonneg_left hij (show 0 ≤ 2 / N by positivity)
    rw [div_mul_cancel₀ _ hN0.ne'] at this
    linarith
  have offp : ∀ i j k l : Fin 4, |(q.coords.data i).val| * |(q.coords.data j).val| + |(q.coords.data k).val| * |(q.coords.data l).val| ≤ N / 2 →
      |(s * q.coords.data i * q.coords.data j + s * q.coords.data k * q.coords.data l).val -
        ((1 + 1) / N * (q.coords.data i).val * (q.coords.data j).val +
          (1 + 1) / N * (q.coords.data k).val * (q.coords.data l).val)| ≤ 1 * ((1 + ρ.u) ^ 13 - 1) := by
    intro i j k l hij
    have h := (((t i j).add ht (t k l)).mono (l := 13) (by norm_num)).2
    refine le_trans h ?_
    rw [mul_comm]
    refine mul_le_mul_of_nonneg_right ?_ g0
    rw [A1, A1, ← mul_add]
    have := mul_le_mul_of_nonneg_left hij (show 0 ≤ 2 / N by positivity)
    have e : 2 / N * (N / 2) = 1 := by field_simp
    linarith
  have offm : ∀ i j k l : Fin 4, |(q.coords.data i).val| * |(q.coords.data j).val| + |(q.coords.data k).val| * |(q.coords.data l).val| ≤ N / 2 →
      |(s * q.coords.data i * q.coords.data j - s * q.coords.data k * q.coords.data l).val -
        ((1 + 1) / N * (q.coords.data i).val * (q.coords.data j).val -
          (1 + 1) / N * (q.coords.data k).val * (q.coords.data l).val)| ≤ 1 * ((1 + ρ.u) ^ 13 - 1) := by
    intro i j k l hij
    have h := (((t i j).sub ht (t k l)).mono (l := 13) (by norm_num)).2
    refine le_trans h ?_
    rw [mul_comm]
    refine mul_le_mul_of_nonneg_right ?_ g0
    rw [A1, A1, ← mul_add]
    have := mul_le_mul_of_nonneg_left hij (show 0 ≤ 2 / N by positivity)
    have e : 2 / N * (N / 2) = 1 := by field_simp
    linarith
  have b1 : |(q.coords.data 1).val| * |(q.coords.data 2).val| + |(q.coords.data 0).val| * |(q.coords.data 3).val| ≤ N / 2 := by
    nlinarith [sq 0, sq 1, sq 2, sq 3, sq_nonneg (|(q.coords.data 1).val| - |(q.coords.data 2).val|),
      sq_nonneg (|(q.coords.data 0).val| - |(q.coords.data 3).val|)]
  have b2 : |(q.coords.data 1).val| * |(q.coords.data 3).val| + |(q.coords.data 0).val| * |(q.coords.data 2).val| ≤ N / 2 := by
    nlinarith [sq 0, sq 1, sq 2, sq 3, sq_nonneg (|(q.coords.data 1).val| - |(q.coords.data 3).val|),
      sq_nonneg (|(q.coords.data 0).val| - |(q.coords.data 2).val|)]
  have b3 : |(q.coords.data 2).val| * |(q.coords.data 3).val| + |(q.coords.data 0).val| * |(q.coords.data 1).val| ≤ N / 2 := by
    nlinarith [sq 0, sq 1, sq 2, sq 3, sq_nonneg (|(q.coords.data 2).val| - |(q.coords.data 3).val|),
      sq_nonneg (|(q.coords.data 0).val| - |(q.coords.data 1).val|)]
  have p := fun i => mul_self_nonneg (q.coords.data i).val
  fin_cases c <;> fin_cases r
  exacts [diag 2 3 (by rw [sq, sq]; linarith [p 0, p 1]), offp 1 2 0 3 b1, offm 1 3 0 2 b2, offm 1 2 0 3 b1,
    diag 1 3 (by rw [sq, sq]; linarith [p 0, p 2]), offp 2 3 0 1 b3, offp 1 3 0 2 b2, offm 2 3 0 1 b3,
    diag 1 2 (by rw [sq, sq]; linarith [p 0, p 3])]

omit ht in
theorem norm_le_of_frobenius {n : ℕ} {m : Mat ℝ n n} {k : ℝ} (hk : 0 ≤ k) (h : ∑ r, ∑ c, m.data c r ^ 2 ≤ k ^ 2) (v : Vec ℝ n) :
    (m * v).norm ≤ k * v.norm := by
  refine norm_le_of_sq hk ?_
  simp only [Mat.mulVec_data]
  calc ∑ r, (∑ c, m.data c r * v.data c) ^ 2 ≤ ∑ r : Fin n, (∑ c, m.data c r ^ 2) * (∑ c, v.data c ^ 2) :=
        sum_le_sum fun r _ => sum_mul_sq_le_sq_mul_sq _ _ _
    _ = (∑ r : Fin n, ∑ c, m.data c r ^ 2) * (∑ c, v.data c ^ 2) := by rw [sum_mul]
    _ ≤ _ := mul_le_mul_of_nonneg_right h (sum_nonneg fun _ _ => sq_nonneg _)

/-- The matrix of a quaternion, which need not have length one: each image is off by at most `6 ((1 + u)^13 - 1)` times its
length, so the matrix nearly preserves lengths. -/
theorem C82_to_matrix (h2 : ρ.fl 2 = 2) (hu : (1 + ρ.u) ^ 4 ≤ 8 / 5) (q : Quat (Fl ρ)) (hq : Spec.exactQuat q ≠ 0) (v : Vec ℝ 3) :
    ((Spec.exactMat q.toMatrix - (Spec.exactQuat q).toMatrix) * v).norm ≤ 6 * ((1 + ρ.u) ^ 13 - 1) * v.norm := by
  have u0 := ρ.u_nonneg
  have g0 : 0 ≤ (1 + ρ.u) ^ 13 - 1 := by linarith [one_le_pow₀ (n := 13) (show 1 ≤ 1 + ρ.u by linarith)]
  refine norm_le_of_frobenius (by positivity) ?_ v
  set g := (1 + ρ.u) ^ 13 - 1 with hg
  have h : ∀ c r, (Spec.exactMat q.toMatrix - (Spec.exactQuat q).toMatrix).data c r ^ 2 ≤ ((if c = r then 3 else 1) * g) ^ 2 := by
    intro c r
    rw [Mat.sub_data, exactMat_data, ← sq_abs]
    exact pow_le_pow_left₀ (abs_nonneg _) (C82_to_matrix_entries ht h2 hu q hq c r) 2
  refine (sum_le_sum fun r _ => sum_le_sum fun c _ => h c r).trans ?_
  simp [Fin.sum_univ_three]
  nlinarith [sq_nonneg g]

end NoUnderflow

/-! ### `f64` -/

/-- the rotation about a coordinate axis -/
def Spec.about {S : Type*} [Zero S] [One S] [Add S] [Sub S] [Mul S] [Div S] [Neg S] [NatCast S] [FloatFns S] (k : Fin 3) (a : Radians S) : Mat S 3 3 :=
  match k with
  | 0 => fromAngleX3 a
  | 1 => fromAngleY3 a
  | 2 => fromAngleZ3 a

theorem rotation_norm {n : ℕ} {A : Mat ℝ n n} (h : Spec.IsRotation A) (v : Vec ℝ n) : (A * v).norm = v.norm := by
  exact (C54_distance ⟨A⟩ h.transpose_mul ⟨v⟩ ⟨v⟩ v).2

/-- Up to a million `f64` rotations about coordinate axes, composed by matrix products bracketed in any way, with a library
accurate to `2 ^ -52`: every image is within `2e-9` times its length of the exact one. -/
theorem C82_coordinate_chain [FloatFns (Fl binary64)] {ε : ℝ} (hF : Spec.TrigWithin binary64 ε) (hε : ε ≤ 2 ^ (-52 : ℤ))
    (t : Spec.Bracketing ι) (axis : ι → Fin 3) (angle : ι → Radians (Fl binary64)) (hm : t.size ≤ 1000000) (v : Vec ℝ 3) :
    ((Spec.exactMat (t.eval (· * ·) fun i => Spec.about (axis i) (angle i)) -
      t.eval (· * ·) fun i => Spec.about (axis i) ⟨(angle i).val.val⟩) * v).norm ≤ 2 / 10 ^ 9 * v.norm := by
  have h2 : Real.sqrt 2 * ε ≤ 2 ^ (-51 : ℤ) := by
    have h3 : Real.sqrt 2 ≤ 2 := Real.sqrt_le_iff.mpr ⟨by norm_num, by norm_num⟩
    calc Real.sqrt 2 * ε ≤ 2 * 2 ^ (-52 : ℤ) := mul_le_mul h3 hε hF.nonneg (by norm_num)
      _ = _ := by norm_num
  refine (C79_rotation_million t _ _ hm (fun i _ v => ?_) (fun i _ v => ?_) v).1
  · refine rotation_norm ?_ v
    generalize axis i = k
    match k with
    | 0 => exact C26_angle_x_rotation _
    | 1 => exact C26_angle_y_rotation _
    | 2 => exact C26_angle_z_rotation _
  · have hv := v.norm_nonneg
    refine (?_ : _ ≤ Real.sqrt 2 * ε * v.norm).trans (mul_le_mul_of_nonneg_right h2 hv)
    generalize axis i = k
    match k with
    | 0 => exact C82_angle_x3 hF _ v
    | 1 => exact C82_angle_y3 hF _ v
    | 2 => exact C82_angle_z3 hF _ v

/-- A library for 53 bits: sine and cosine accurate to `2 ^ -52`, square roots correctly rounded. -/
structure Spec.Library53 [FloatFns (Fl precision53)] : Prop where
  trig : ∃ ε ≤ (2 : ℝ) ^ (-52 : ℤ), Spec.TrigWithin precision53 ε
  sqrt : ∀ x : Fl precision53, (fsqrt x).val = precision53.fl (Real.sqrt x.val)

theorem precision53_halves : Spec.Halves precision53 := C82_halves (by norm_num) (by simp)

/-- There is one. -/
theorem C82_library53 : Spec.Library53 :=
  ⟨⟨_, by rw [precision53_tiny, precision53_u]; norm_num, C82_correctly_rounded⟩, fun _ => rfl⟩

theorem map_ne_zero {n : ℕ} {v : Vec (Fl ρ) n} (hv : v ≠ 0) : v.map Fl.val ≠ 0 := fun h => hv (by
  ext i : 2
  have := congrArg (fun w : Vec ℝ n => w.data i) h
  exact Fl.ext (by simpa using this))

theorem axis53 [F : FloatFns (Fl precision53)] (hF : Spec.Library53) (v : Vec (Fl precision53) 3) (hv : v ≠ 0) :
    ((Unit'.fromValue v).value.map Fl.val - (v.map Fl.val).normalize).norm ≤ 7 * 2 ^ (-53 : ℤ) := by
  have e : (Unit'.fromValue v).value = @Vec.normalize (Fl precision53) 3 _ _ _ _ _ Fl.instFloatFns v := by
    show v * (1 / fsqrt v.normSquared) = v * (1 / @fsqrt _ Fl.instFloatFns v.normSquared)
    congr 2
    exact Fl.ext (hF.sqrt _)
  rw [e]
  refine (C82_axis precision53_tiny v hv (by rw [precision53_u]; norm_num)).trans ?_
  rw [precision53_u]; norm_num

/-- The quaternion of an axis, normalised by `Unit::from_value`, and an angle is within `13 u` of the exact one. -/
theorem C82_quaternion_f64 [FloatFns (Fl precision53)] (hF : Spec.Library53) (v : Vec (Fl precision53) 3) (hv : v ≠ 0)
    (a : Radians (Fl precision53)) :
    (Spec.exactQuat (Quat.fromAxisAngle (Unit'.fromValue v) a) -
      Quat.fromAxisAngle (Unit'.fromValue (v.map Fl.val)) ⟨a.val.val⟩).norm ≤ 13 * 2 ^ (-53 : ℤ) := by
  obtain ⟨ε, hε, ht⟩ := hF.trig
  refine (C82_quaternion ht precision53_halves _ _ (Vec.normalize_norm (map_ne_zero hv)) (axis53 hF v hv) a).trans ?_
  rw [precision53_tiny, precision53_u]
  norm_num at hε ⊢
  linarith

/-- The matrix of such an axis and an angle: every image is within `165 u` (less than `2e-14`) times its length of the exact
one. -/
theorem C82_axis_angle_f64 [FloatFns (Fl precision53)] (hF : Spec.Library53) (v : Vec (Fl precision53) 3) (hv : v ≠ 0)
    (a : Radians (Fl precision53)) (x : Vec ℝ 3) :
    ((Spec.exactMat (fromAxisAngle3 (Unit'.fromValue v) a) -
      fromAxisAngle3 (Unit'.fromValue (v.map Fl.val)) ⟨a.val.val⟩) * x).norm ≤ 165 * 2 ^ (-53 : ℤ) * x.norm := by
  obtain ⟨ε, hε, ht⟩ := hF.trig
  have hax := axis53 hF v hv
  refine (C82_axis_angle ht precision53_halves.two (by rw [precision53_tiny, precision53_u]; norm_num) _ _
    (Vec.normalize_norm (map_ne_zero hv)) (δ := 7 * 2 ^ (-53 : ℤ)) (by norm_num) (fun i => ?_) a x).trans
    (mul_le_mul_of_nonneg_right ?_ x.norm_nonneg)
  · refine le_trans ?_ hax
    rw [← norm_toLp]
    refine le_trans (le_of_eq ?_) (PiLp.norm_apply_le _ i)
    simp
  · rw [precision53_tiny, precision53_u]
    norm_num at hε ⊢
    linarith

/-- The matrix of a non-zero quaternion: within `80 u` (less than `1e-14`). -/
theorem C82_to_matrix_f64 (q : Quat (Fl precision53)) (hq : Spec.exactQuat q ≠ 0) (v : Vec ℝ 3) :
    ((Spec.exactMat q.toMatrix - (Spec.exactQuat q).toMatrix) * v).norm ≤ 80 * 2 ^ (-53 : ℤ) * v.norm := by
  refine (C82_to_matrix precision53_tiny precision53_halves.two (by rw [precision53_u]; norm_num) q hq v).trans
    (mul_le_mul_of_nonneg_right ?_ v.norm_nonneg)
  rw [precision53_u]; norm_num

/-- The axis `(1, 1, 1)`, whose exact direction is not representable, and any angle. -/
example (a : Radians (Fl precision53)) :
    (Spec.exactQuat (Quat.fromAxisAngle (Unit'.fromValue (⟨fun _ => 1⟩ : Vec (Fl precision53) 3)) a) -
      Quat.fromAxisAngle (Unit'.fromValue (⟨fun _ => 1⟩ : Vec ℝ 3)) ⟨a.val.val⟩).norm ≤ 13 * 2 ^ (-53 : ℤ) := by
  have h := C82_quaternion_f64 C82_library53 (⟨fun _ => 1⟩ : Vec (Fl precision53) 3)
    (fun h => by simpa using congrArg (fun w : Vec (Fl precision53) 3 => (w.data 0).val) h) a
  have e : (⟨fun _ => 1⟩ : Vec (Fl precision53) 3).map Fl.val = ⟨fun _ => 1⟩ := by ext i; simp
  rwa [e] at h

end Cgl

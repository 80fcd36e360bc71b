import Verif.Props.C54_Rotation
import Verif.Props.C30_RotationBetween
import Mathlib.Analysis.SpecialFunctions.Complex.Arg

/-! # C55 - recovering the angle and the axis of a rotation -/

namespace Cgl
open Mat

/-! ### the plane -/

/-- the angle read back is the unique one in `(-π, π]` that differs from the one used by full turns -/
theorem C55_angle2 (t : Radians ℝ) : ∃ k : ℤ, ((Rotation.fromAngle2 t).angle2).val = t.val - k * (2 * Real.pi) ∧
    -Real.pi < ((Rotation.fromAngle2 t).angle2).val ∧ ((Rotation.fromAngle2 t).angle2).val ≤ Real.pi := by
  have e : ((Rotation.fromAngle2 t).angle2).val = Complex.arg ⟨Real.cos t.val, Real.sin t.val⟩ := rfl
  have hc : (⟨Real.cos t.val, Real.sin t.val⟩ : ℂ) = Complex.exp (t.val * Complex.I) := by
    apply Complex.ext <;> simp [Complex.exp_ofReal_mul_I_re, Complex.exp_ofReal_mul_I_im]
  rw [e, hc, Complex.arg_exp_mul_I]
  have hm := toIocMod_mem_Ioc Real.two_pi_pos (-Real.pi) t.val
  refine ⟨toIocDiv Real.two_pi_pos (-Real.pi) t.val, ?_, hm.1, hm.2.trans (by linarith)⟩
  have := toIocMod_add_toIocDiv_zsmul Real.two_pi_pos (-Real.pi) t.val
  rw [zsmul_eq_mul] at this; linarith

theorem C55_angle2_eq {t : Radians ℝ} (h : -Real.pi < t.val) (h' : t.val ≤ Real.pi) :
    (Rotation.fromAngle2 t).angle2 = t := by
  obtain ⟨k, e, h1, h2⟩ := C55_angle2 t
  have hk : k = 0 := by
    have hp := Real.pi_pos
    have a : (k : ℝ) < 1 := by by_contra hh; nlinarith [not_lt.mp hh]
    have b : (-1 : ℝ) < k := by by_contra hh; nlinarith [not_lt.mp hh]
    have a' : k < 1 := by exact_mod_cast a
    have b' : -1 < k := by exact_mod_cast b
    omega
  subst hk
  ext1; rw [e]; simp

/-- every plane rotation is rebuilt from the angle read off it -/
theorem C55_rebuild2 {t : Rotation ℝ 2} (h : Spec.IsRotation t.matrix) : Rotation.fromAngle2 t.angle2 = t := by
  have d := h.det_one
  rw [← C17_det2, determinant2] at d
  have e : ∀ c r, (t.matrix.transpose * t.matrix).data c r = (Mat.identity : Mat ℝ 2 2).data c r :=
    fun c r => by rw [h.transpose_mul]
  have e00 := e 0 0
  have e10 := e 1 0
  have e11 := e 1 1
  simp [mul_data, Fin.sum_univ_two] at e00 e10 e11
  set a := t.matrix.data 0 0; set b := t.matrix.data 0 1; set c := t.matrix.data 1 0; set f := t.matrix.data 1 1
  have hc : c = -b := by grind
  have hf : f = a := by grind
  obtain ⟨p, q⟩ := arg_unit (c := a) (s := b) (by nlinarith)
  ext1
  have ev : t.angle2.val = Complex.arg ⟨a, b⟩ := rfl
  show Mat.fromAngle2 t.angle2 = t.matrix
  apply ext2 <;> simp [Mat.fromAngle2, ev, p, q, a, b]
  · exact hc.symm
  · exact hf.symm

/-! ### space -/

section
variable {a : Unit' (Vec ℝ 3)} (t : Radians ℝ) (ha : a.value.norm = 1)

include ha in
private theorem unit_dot : a.value.dot a.value = 1 := by
  show Vec.normSquared _ = 1; rw [← Vec.norm_sq, ha, one_pow]

include ha in
/-- the angle of a rotation about an axis: the angle in `[0, π]` with the same cosine -/
theorem C55_angle3 : Real.cos ((Rotation.fromAxisAngle a t).angle3).val = Real.cos t.val ∧
    0 ≤ ((Rotation.fromAxisAngle a t).angle3).val ∧ ((Rotation.fromAxisAngle a t).angle3).val ≤ Real.pi := by
  have e : ((Rotation.fromAxisAngle a t).angle3).val = Real.arccos (Real.cos t.val) := by
    show Real.arccos _ = _
    congr 1
    have h := unit_dot ha
    rw [Vec.dot3] at h
    simp [Rotation.fromAxisAngle, fromAxisAngle3]
    linear_combination (1 - Real.cos t.val) / 2 * h
  rw [e]
  exact ⟨Real.cos_arccos (Real.neg_one_le_cos _) (Real.cos_le_one _), Real.arccos_nonneg _, Real.arccos_le_pi _⟩

include ha in
theorem C55_angle3_eq (h : |t.val| ≤ Real.pi) : ((Rotation.fromAxisAngle a t).angle3).val = |t.val| := by
  obtain ⟨c, l, u⟩ := C55_angle3 t ha
  rw [← Real.cos_abs t.val] at c
  exact Real.injOn_cos ⟨l, u⟩ ⟨abs_nonneg _, h⟩ c

private theorem axis_vector : Vec.new3
      ((Rotation.fromAxisAngle a t).matrix.data 1 2 - (Rotation.fromAxisAngle a t).matrix.data 2 1)
      ((Rotation.fromAxisAngle a t).matrix.data 2 0 - (Rotation.fromAxisAngle a t).matrix.data 0 2)
      ((Rotation.fromAxisAngle a t).matrix.data 0 1 - (Rotation.fromAxisAngle a t).matrix.data 1 0) =
    a.value * (2 * Real.sin t.val) := by
  apply Vec.ext3 <;> simp [Rotation.fromAxisAngle, fromAxisAngle3] <;> ring

include ha in
/-- the axis is found exactly when the sine of the angle is not too small -/
theorem C55_axis_none_iff (eps : ℝ) : (Rotation.fromAxisAngle a t).axis3 eps = none ↔
    (2 * Real.sin t.val) ^ 2 ≤ eps * eps := by
  unfold Rotation.axis3
  rw [axis_vector, C05_try_from_value_none_iff]
  have h := unit_dot ha
  have : (a.value * (2 * Real.sin t.val)).normSquared = (2 * Real.sin t.val) ^ 2 := by
    rw [Vec.dot3] at h
    simp only [Vec.normSquared, Vec.dot3, Vec.mulS_data]
    linear_combination (2 * Real.sin t.val) ^ 2 * h
  rw [this]

include ha in
/-- ... and then it is the axis used, or its opposite when the angle was negative (up to full turns) -/
theorem C55_axis (eps : ℝ) {u : Unit' (Vec ℝ 3)} (h : (Rotation.fromAxisAngle a t).axis3 eps = some u) :
    (0 < Real.sin t.val ∧ u = a) ∨ (Real.sin t.val < 0 ∧ u.value = -a.value) := by
  have hn : ¬ (Rotation.fromAxisAngle a t).axis3 eps = none := by rw [h]; simp
  rw [C55_axis_none_iff t ha] at hn
  have hs : Real.sin t.val ≠ 0 := by
    intro h0; rw [h0] at hn; apply hn; nlinarith [mul_self_nonneg eps]
  unfold Rotation.axis3 at h
  rw [axis_vector] at h
  obtain ⟨-, e⟩ := C05_try_from_value_unit _ _ _ h
  rw [Vec.normalize_def, Vec.norm_mulS, ha, one_mul] at e
  rcases lt_or_gt_of_ne hs with h1 | h1
  · right; refine ⟨h1, ?_⟩
    rw [e, abs_of_neg (by linarith)]
    ext i; simp; field_simp
  · left; refine ⟨h1, ?_⟩
    ext1
    rw [e, abs_of_pos (by linarith)]
    ext i; simp; field_simp

include ha in
/-- A half turn has no axis according to `axis()`, although it is not the identity: the tolerance test is on the
antisymmetric part of the matrix, which vanishes there. -/
theorem C55_half_turn_no_axis (eps : ℝ) : (Rotation.fromAxisAngle a (⟨Real.pi⟩ : Radians ℝ)).axis3 eps = none ∧
    (Rotation.fromAxisAngle a (⟨Real.pi⟩ : Radians ℝ)).axisAngle3 eps = none ∧
    Rotation.fromAxisAngle a (⟨Real.pi⟩ : Radians ℝ) ≠ Rotation.identity := by
  have h : (Rotation.fromAxisAngle a (⟨Real.pi⟩ : Radians ℝ)).axis3 eps = none := by
    rw [C55_axis_none_iff _ ha]; simp [mul_self_nonneg]
  refine ⟨h, by rw [Rotation.axisAngle3, h]; rfl, fun he => ?_⟩
  have h2 := C26_axis_angle_trace (⟨Real.pi⟩ : Radians ℝ) (unit_dot ha)
  rw [show Mat.fromAxisAngle3 a (⟨Real.pi⟩ : Radians ℝ) = Mat.identity from congrArg Rotation.matrix he] at h2
  rw [trace_eq_sum] at h2; simp at h2; norm_num at h2
end

/-- Euler's theorem: every rotation matrix is a rotation by an angle in `[0, π]` about some unit axis. -/
theorem Spec.IsRotation.axis_angle {R : Mat ℝ 3 3} (h : Spec.IsRotation R) :
    ∃ (u : Unit' (Vec ℝ 3)) (t : Radians ℝ), u.value.norm = 1 ∧ 0 ≤ t.val ∧ t.val ≤ Real.pi ∧
      Mat.fromAxisAngle3 u t = R := by
  obtain ⟨q, hq, hR, hs⟩ : ∃ q : Quat ℝ, q.norm = 1 ∧ q.toMatrix = R ∧ 0 ≤ q.s := by
    obtain ⟨q, hq, hR⟩ := C42_surjective h
    rcases le_total 0 q.s with h0 | h0
    · exact ⟨q, hq, hR, h0⟩
    · refine ⟨-q, ?_, ?_, by simpa using h0⟩
      · rw [Quat.norm_eq_one_iff, Quat.normSquared_eq] at *; simpa using hq
      · rw [← hR]
        have h0 : q ≠ 0 := by rintro rfl; rw [Quat.norm_eq_zero.mpr rfl] at hq; exact zero_ne_one hq
        have := C41_scale q (Quat.normSquared_eq_zero.not.mpr h0) (show (-1 : ℝ) ≠ 0 by norm_num)
        rw [← this]; congr 1
        apply Quat.ext4 <;> simp
  have hq2 := Quat.norm_eq_one_iff.mp hq
  rw [Quat.normSquared_eq] at hq2
  have hs1 : q.s ≤ 1 := by nlinarith [sq_nonneg q.x, sq_nonneg q.y, sq_nonneg q.z]
  have hcos := Real.cos_arccos (by linarith : -1 ≤ q.s) hs1
  have hsin := Real.sin_arccos q.s
  have key : ∀ u : Unit' (Vec ℝ 3), u.value.norm = 1 → u.value * Real.sin (Real.arccos q.s) = q.vector →
      ∃ (u : Unit' (Vec ℝ 3)) (t : Radians ℝ), u.value.norm = 1 ∧ 0 ≤ t.val ∧ t.val ≤ Real.pi ∧
      Mat.fromAxisAngle3 u t = R := by
    intro u hu hv
    refine ⟨u, ⟨2 * Real.arccos q.s⟩, hu, mul_nonneg zero_le_two (Real.arccos_nonneg _), ?_, ?_⟩
    · have := Real.arccos_le_pi_div_two.mpr hs; simp only; linarith
    · rw [← C43_to_matrix u _ (by rw [← Vec.norm_sq, hu, one_pow]), ← hR]
      congr 1
      rw [C43_formula]
      have e : 2 * Real.arccos q.s / 2 = Real.arccos q.s := by ring
      have c0 := congrArg (fun v => v.data 0) hv
      have c1 := congrArg (fun v => v.data 1) hv
      have c2 := congrArg (fun v => v.data 2) hv
      simp at c0 c1 c2
      apply Quat.ext4 <;> simp [e, hcos, c0, c1, c2]
  by_cases h0 : q.vector = 0
  · refine key ⟨Vec.unitX3⟩ ?_ ?_
    · rw [Vec.norm_def]; simp [Vec.normSquared, Vec.dot3, Vec.unitX3]
    · rw [h0]
      have c0 := congrArg (fun v => v.data 0) h0
      have c1 := congrArg (fun v => v.data 1) h0
      have c2 := congrArg (fun v => v.data 2) h0
      simp at c0 c1 c2
      have : (1 : ℝ) - q.s ^ 2 = 0 := by rw [c0, c1, c2] at hq2; nlinarith
      rw [hsin, this, Real.sqrt_zero]
      ext i; simp
  · refine key ⟨q.vector.normalize⟩ (Vec.normalize_norm h0) ?_
    have : Real.sin (Real.arccos q.s) = q.vector.norm := by
      rw [hsin, Vec.norm_def]; congr 1
      simp only [Vec.normSquared, Vec.dot3]
      simp
      linarith
    rw [this, Vec.normalize_def]
    have hn := (Vec.norm_pos h0).ne'
    ext i; simp; field_simp

/-- the angle of any rotation lies in `[0, π]` and is determined by its trace -/
theorem C55_angle3_trace {t : Rotation ℝ 3} (h : Spec.IsRotation t.matrix) :
    t.matrix.trace = 1 + 2 * Real.cos t.angle3.val ∧ 0 ≤ t.angle3.val ∧ t.angle3.val ≤ Real.pi := by
  obtain ⟨u, a, hu, -, -, e⟩ := h.axis_angle
  have et : t = Rotation.fromAxisAngle u a := by ext1; exact e.symm
  obtain ⟨c, l, r⟩ := C55_angle3 a hu
  rw [← et] at c l r
  refine ⟨?_, l, r⟩
  rw [c, ← e]; exact C26_axis_angle_trace a (by rw [show u.value.dot u.value = u.value.normSquared from rfl, ← Vec.norm_sq, hu, one_pow])

/-- whenever `axis_angle()` is `Some`, it rebuilds the rotation -/
theorem C55_rebuild3 {t : Rotation ℝ 3} (h : Spec.IsRotation t.matrix) (eps : ℝ) {u : Unit' (Vec ℝ 3)} {a : Radians ℝ}
    (ha : t.axisAngle3 eps = some (u, a)) : Rotation.fromAxisAngle u a = t ∧ u.value.norm = 1 := by
  obtain ⟨v, b, hv, l, r, e⟩ := h.axis_angle
  have et : t = Rotation.fromAxisAngle v b := by ext1; exact e.symm
  unfold Rotation.axisAngle3 at ha
  obtain ⟨w, hw, e2⟩ := Option.map_eq_some_iff.mp ha
  obtain ⟨rfl, rfl⟩ := Prod.mk.injEq _ _ _ _ ▸ e2
  rw [et] at hw
  have hb : t.angle3 = b := by
    ext1; rw [et, C55_angle3_eq b hv (by rw [abs_of_nonneg l]; exact r), abs_of_nonneg l]
  rcases C55_axis b hv eps hw with ⟨-, rfl⟩ | ⟨hneg, -⟩
  · exact ⟨by rw [hb, ← et], hv⟩
  · exact absurd (Real.sin_nonneg_of_nonneg_of_le_pi l r) (not_le.mpr hneg)

/-- and it is `Some` for every rotation whose angle has a sine above half the tolerance -/
theorem C55_axis_angle_some_iff {t : Rotation ℝ 3} (h : Spec.IsRotation t.matrix) {eps : ℝ} (he : 0 ≤ eps) :
    (t.axisAngle3 eps).isSome ↔ eps < 2 * Real.sin t.angle3.val := by
  obtain ⟨v, b, hv, l, r, e⟩ := h.axis_angle
  have et : t = Rotation.fromAxisAngle v b := by ext1; exact e.symm
  have hb : t.angle3 = b := by
    ext1; rw [et, C55_angle3_eq b hv (by rw [abs_of_nonneg l]; exact r), abs_of_nonneg l]
  have hn := C55_axis_none_iff b hv eps
  rw [← et] at hn
  rw [Rotation.axisAngle3, Option.isSome_map, hb, Option.isSome_iff_ne_none, Ne, hn, not_le]
  have hs := Real.sin_nonneg_of_nonneg_of_le_pi l r
  constructor
  · intro h; by_contra hc; push Not at hc; nlinarith
  · intro h; nlinarith

/-- a third of a turn about the z axis is recovered whatever reasonable tolerance is in use -/
example : (Rotation.fromAngleZ (⟨Real.pi / 2⟩ : Radians ℝ)).axisAngle3 1 =
    some (⟨Vec.unitZ3⟩, ⟨Real.pi / 2⟩) := by
  have hz : (⟨Vec.unitZ3⟩ : Unit' (Vec ℝ 3)).value.norm = 1 := by
    rw [Vec.norm_def]; simp [Vec.normSquared, Vec.dot3, Vec.unitZ3]
  have hr : Spec.IsRotation (Rotation.fromAngleZ (⟨Real.pi / 2⟩ : Radians ℝ)).matrix :=
    C54_rotation3 (.fromAngleZ _)
  have hp := Real.pi_pos
  have ha : ((Rotation.fromAngleZ (⟨Real.pi / 2⟩ : Radians ℝ)).angle3).val = Real.pi / 2 := by
    have := C55_angle3_eq (⟨Real.pi / 2⟩ : Radians ℝ) hz (by simp only; rw [abs_of_pos] <;> linarith)
    simp only at this
    rw [abs_of_pos (by linarith)] at this
    exact this
  have hsome := (C55_axis_angle_some_iff hr zero_le_one).mpr (by rw [ha, Real.sin_pi_div_two]; norm_num)
  obtain ⟨⟨u, b⟩, hu⟩ := Option.isSome_iff_exists.mp hsome
  unfold Rotation.axisAngle3 at hu
  obtain ⟨w, hw, e2⟩ := Option.map_eq_some_iff.mp hu
  rcases C55_axis (⟨Real.pi / 2⟩ : Radians ℝ) hz 1 hw with ⟨-, h2⟩ | ⟨hneg, -⟩
  · rw [Rotation.axisAngle3, hw, h2, Option.map_some]
    congr 2
    ext1; exact ha
  · simp at hneg; linarith

end Cgl

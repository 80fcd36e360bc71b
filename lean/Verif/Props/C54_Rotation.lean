import Verif.Lemmas.Transform
import Verif.Props.C05_Unit
import Verif.Props.C12_Points
import Verif.Props.C28_LookAt
import Verif.Props.C43_QuaternionAxisAngle
import Verif.Props.C49_Euler

/-! # C54 - rotations -/

namespace Cgl
open Mat

variable {K : Type*} {n : ℕ}

/-! ### the group of rotations acting on points and vectors, in every dimension and over every commutative ring -/

section Ring
variable [CommRing K] (t u w : Rotation K n) (p : Pt K n) (v v' : Vec K n)

theorem C54_apply : t.applyVector v = t.matrix * v ∧ (t.applyPoint p).coords = t.matrix * p.coords := ⟨rfl, rfl⟩

theorem C54_compose : (t * u).applyVector v = t.applyVector (u.applyVector v) ∧
    (t * u).applyPoint p = t.applyPoint (u.applyPoint p) :=
  ⟨mul_mulVec _ _ _, congrArg Pt.mk (mul_mulVec _ _ _)⟩
theorem C54_assoc : (t * u) * w = t * (u * w) := by ext1; exact C13_mul_assoc _ _ _
theorem C54_identity : Rotation.identity * t = t ∧ t * Rotation.identity = t ∧
    (Rotation.identity : Rotation K n).applyVector v = v ∧ (Rotation.identity : Rotation K n).applyPoint p = p :=
  ⟨by ext1; exact C13_one_mul _, by ext1; exact C13_mul_one _, identity_mulVec v,
    congrArg Pt.mk (identity_mulVec p.coords)⟩

omit [CommRing K] in
/-- the in-place inverse never panics and is the inverse -/
theorem C54_inverse_mut [Zero K] (t : Rotation K n) : t.inverseMut = .ok t.inverse := by
  unfold Rotation.inverseMut; rw [C14_transpose_mut]; rfl
omit [CommRing K] in
theorem C54_inverse_inverse [Zero K] (t : Rotation K n) : t.inverse.inverse = t := by
  ext1; exact C14_transpose_involutive _
theorem C54_inverse_mul_rev : (t * u).inverse = u.inverse * t.inverse := by
  ext1; exact C14_transpose_mul _ _
theorem C54_inverse_apply : t.inverseApplyVector v = t.inverse.applyVector v ∧
    t.inverseApplyPoint p = t.inverse.applyPoint p := ⟨rfl, rfl⟩

section Orthogonal
variable (h : t.matrix.transpose * t.matrix = identity)
include h

/-- the inverse undoes the rotation -/
theorem C54_inverse : t.inverse * t = Rotation.identity ∧ t * t.inverse = Rotation.identity ∧
    t.inverseApplyVector (t.applyVector v) = v ∧ t.applyVector (t.inverseApplyVector v) = v ∧
    t.inverseApplyPoint (t.applyPoint p) = p ∧ t.applyPoint (t.inverseApplyPoint p) = p := by
  have h' := mul_comm_of_identity h
  have a : ∀ v : Vec K n, t.matrix.transpose * (t.matrix * v) = v := fun v => by rw [← mul_mulVec, h, identity_mulVec]
  have b : ∀ v : Vec K n, t.matrix * (t.matrix.transpose * v) = v := fun v => by rw [← mul_mulVec, h', identity_mulVec]
  exact ⟨by ext1; exact h, by ext1; exact h', a v, b v, congrArg Pt.mk (a p.coords), congrArg Pt.mk (b p.coords)⟩

/-- dot products are preserved -/
theorem C54_dot : (t.applyVector v).dot (t.applyVector v') = v.dot v' := by
  show (t.matrix * v).dot (t.matrix * v') = _
  rw [C14_dot_adjoint, ← mul_mulVec, h, identity_mulVec]
end Orthogonal

/-- the homogeneous matrix acts identically -/
theorem C54_affine_matrix : t.toAffineMatrix * p.toHomogeneous = (t.applyPoint p).toHomogeneous ∧
    t.toAffineMatrix * v.extend 0 = (t.applyVector v).extend 0 :=
  ⟨embed_mul t.matrix p.coords 1, embed_mul t.matrix v 0⟩
theorem C54_affine_mul : (t * u).toAffineMatrix = t.toAffineMatrix * u.toAffineMatrix := C27_mul _ _ _
end Ring

theorem C54_transform [Field K] [DecidableEq K] (t : Rotation K n) :
    Spec.Represents t.toTransform t.applyPoint t.applyVector := by
  have h : ∀ (v : Vec K n) (w : K), t.toTransform.matrix * v.extend w =
      (t.matrix * v + (0 : Vec K n) * w).extend w := by
    intro v w
    refine (embed_mul t.matrix v w).trans ?_
    congr 1; ext i; simp
  have := Transform.represents_of_affine h
  refine ⟨fun p => ?_, this.vector⟩
  rw [this.point]; congr 1; apply Pt.ext_data; intro i; simp [Rotation.applyPoint, Pt.fromVector, Pt.toVector]

/-- distances are preserved -/
theorem C54_distance (t : Rotation ℝ n) (h : t.matrix.transpose * t.matrix = identity) (p q : Pt ℝ n) (v : Vec ℝ n) :
    (t.applyPoint p).metricDistance (t.applyPoint q) = p.metricDistance q ∧ (t.applyVector v).norm = v.norm := by
  have key : ∀ v : Vec ℝ n, (t.applyVector v).norm = v.norm := fun v => by
    rw [Vec.norm_def, Vec.norm_def]; congr 1; exact C54_dot t v v h
  refine ⟨?_, key v⟩
  rw [C12_distance, C12_distance, ← key (p - q)]
  congr 1; ext i
  simp [Rotation.applyPoint, Rotation.applyVector, Pt.fromVector, Pt.toVector, mulVec_data, mul_sub]

/-! ### every rotation the public constructors build is a rotation -/

theorem Spec.IsRotation.identity : Spec.IsRotation (identity : Mat ℝ n n) := by
  apply Spec.IsRotation.of_transpose_mul
  · rw [C14_transpose_identity, C13_one_mul]
  · rw [leibniz_eq, toMatrix_identity, Matrix.det_one]

theorem Spec.IsRotation.transpose {A : Mat ℝ n n} (h : Spec.IsRotation A) : Spec.IsRotation A.transpose := by
  refine ⟨by rw [C14_transpose_involutive]; exact h.mul_transpose,
    by rw [C14_transpose_involutive]; exact h.transpose_mul, ?_⟩
  have := h.det_one
  rw [leibniz_eq] at *; rw [toMatrix_transpose, Matrix.det_transpose, this]

/-- Values of type `Rotation2` that can be obtained through its API. -/
inductive Spec.Rotation2Value : Rotation ℝ 2 → Prop
  | identity : Rotation2Value Rotation.identity
  | fromAngle (a) : Rotation2Value (Rotation.fromAngle2 a)
  | betweenAxis (a b) : Rotation2Value (Rotation.rotationBetweenAxis2 a b)
  | between (a b) : Rotation2Value (Rotation.rotationBetween2 a b)
  | mul {t u} : Rotation2Value t → Rotation2Value u → Rotation2Value (t * u)
  | inverse {t} : Rotation2Value t → Rotation2Value t.inverse
  | inverseMut {t u} : Rotation2Value t → t.inverseMut = .ok u → Rotation2Value u

/-- Values of type `Rotation3` that can be obtained through its API, from unit axes, non-zero quaternions and
non-degenerate viewing directions. -/
inductive Spec.Rotation3Value : Rotation ℝ 3 → Prop
  | identity : Rotation3Value Rotation.identity
  | fromAxisAngle {axis : Unit' (Vec ℝ 3)} (h : axis.value.norm = 1) (a) : Rotation3Value (Rotation.fromAxisAngle axis a)
  | fromAngleX (a) : Rotation3Value (Rotation.fromAngleX a)
  | fromAngleY (a) : Rotation3Value (Rotation.fromAngleY a)
  | fromAngleZ (a) : Rotation3Value (Rotation.fromAngleZ a)
  | fromQuaternion {q : Quat ℝ} (h : q ≠ 0) : Rotation3Value (Rotation.fromQuaternion q)
  | fromEulerAngles {A : Type} (into : A → Radians ℝ) (e : Euler A) : Rotation3Value (Rotation.fromEulerAngles into e)
  | lookToLh {d up : Vec ℝ 3} (h : up.cross d ≠ 0) : Rotation3Value (Rotation.lookToLh d up)
  | lookToRh {d up : Vec ℝ 3} (h : up.cross d ≠ 0) : Rotation3Value (Rotation.lookToRh d up)
  | lookAtLh {e t : Pt ℝ 3} {up : Vec ℝ 3} (h : up.cross (t - e) ≠ 0) : Rotation3Value (Rotation.lookAtLh e t up)
  | lookAtRh {e t : Pt ℝ 3} {up : Vec ℝ 3} (h : up.cross (t - e) ≠ 0) : Rotation3Value (Rotation.lookAtRh e t up)
  | lookToLhInv {d up : Vec ℝ 3} (h : up.cross d ≠ 0) : Rotation3Value (Rotation.lookToLhInv d up)
  | lookToRhInv {d up : Vec ℝ 3} (h : up.cross d ≠ 0) : Rotation3Value (Rotation.lookToRhInv d up)
  | lookAtLhInv {e t : Pt ℝ 3} {up : Vec ℝ 3} (h : up.cross (t - e) ≠ 0) : Rotation3Value (Rotation.lookAtLhInv e t up)
  | lookAtRhInv {e t : Pt ℝ 3} {up : Vec ℝ 3} (h : up.cross (t - e) ≠ 0) : Rotation3Value (Rotation.lookAtRhInv e t up)
  | betweenAxis (eps) {a b : Unit' (Vec ℝ 3)} (ha : a.value.norm = 1) (hb : b.value.norm = 1) {t}
      (h : Rotation.rotationBetweenAxis eps a b = some t) : Rotation3Value t
  | between (eps) (a b : Vec ℝ 3) {t} (h : Rotation.rotationBetween eps a b = some t) : Rotation3Value t
  | mul {t u} : Rotation3Value t → Rotation3Value u → Rotation3Value (t * u)
  | inverse {t} : Rotation3Value t → Rotation3Value t.inverse
  | inverseMut {t u} : Rotation3Value t → t.inverseMut = .ok u → Rotation3Value u

theorem C54_rotation2 {t : Rotation ℝ 2} (h : Spec.Rotation2Value t) : Spec.IsRotation t.matrix := by
  induction h with
  | identity => exact Spec.IsRotation.identity
  | fromAngle a => exact C26_angle2_rotation a
  | betweenAxis a b => exact C26_angle2_rotation _
  | between a b =>
    unfold Rotation.rotationBetween2
    split
    · exact C26_angle2_rotation _
    · exact Spec.IsRotation.identity
  | mul _ _ h1 h2 => exact h1.mul h2
  | inverse _ h => exact h.transpose
  | inverseMut _ e h =>
    rw [C54_inverse_mut] at e; cases e; exact h.transpose

/-- a quaternion that is returned for two directions is not zero -/
theorem between_ne_zero (eps : ℝ) {a b : Unit' (Vec ℝ 3)} {q : Quat ℝ}
    (h : Quat.rotationBetweenAxis eps a b = some q) : q ≠ 0 := by
  have one : (Quat.identity : Quat ℝ) ≠ 0 := by
    intro h; have := congrArg Quat.s h; simp at this
  unfold Quat.rotationBetweenAxis at h
  simp only at h
  split at h
  · rename_i axis hax
    split_ifs at h
    · cases h; exact one
    · rw [Option.some.injEq] at h
      subst h
      have hu := (C05_try_from_value_unit _ _ _ hax).1
      intro h0
      have := C43_unit axis ⟨Real.arccos (a.value.dot b.value)⟩
        (by rw [← Vec.norm_sq, hu, one_pow])
      rw [show Quat.fromAxisAngle axis ⟨Real.arccos (a.value.dot b.value)⟩ = 0 from h0] at this
      rw [Quat.norm_def, Quat.normSquared_eq] at this
      simp at this
  · split_ifs at h
    cases h; exact one

theorem C54_rotation3 {t : Rotation ℝ 3} (h : Spec.Rotation3Value t) : Spec.IsRotation t.matrix := by
  induction h with
  | identity => exact Spec.IsRotation.identity
  | fromAxisAngle h a =>
    refine C26_axis_angle_rotation a ?_
    show Vec.normSquared _ = 1
    rw [← Vec.norm_sq, h, one_pow]
  | fromAngleX a => exact C26_axis_angle_rotation a (by simp [Vec.dot3, Vec.unitX3])
  | fromAngleY a => exact C26_axis_angle_rotation a (by simp [Vec.dot3, Vec.unitY3])
  | fromAngleZ a => exact C26_axis_angle_rotation a (by simp [Vec.dot3, Vec.unitZ3])
  | fromQuaternion h => exact C41_rotation _ h
  | fromEulerAngles into e => exact C49_rotation _
  | lookToLh h => exact (C28_look_to_lh3 h).rotation
  | lookToRh h => exact (C28_look_to_rh3 h).rotation
  | lookAtLh h => exact (C28_look_to_lh3 h).rotation
  | lookAtRh h => exact (C28_look_to_rh3 h).rotation
  | lookToLhInv h => exact (C28_look_to_lh3 h).rotation.transpose
  | lookToRhInv h => exact (C28_look_to_rh3 h).rotation.transpose
  | lookAtLhInv h => exact (C28_look_to_lh3 h).rotation.transpose
  | lookAtRhInv h => exact (C28_look_to_rh3 h).rotation.transpose
  | betweenAxis eps ha hb h =>
    unfold Rotation.rotationBetweenAxis at h
    obtain ⟨q, hq, rfl⟩ := Option.map_eq_some_iff.mp h
    exact C41_rotation _ (between_ne_zero eps hq)
  | between eps a b h =>
    unfold Rotation.rotationBetween at h
    obtain ⟨q, hq, rfl⟩ := Option.map_eq_some_iff.mp h
    refine C41_rotation _ ?_
    unfold Quat.rotationBetween at hq
    split at hq
    · exact between_ne_zero eps hq
    · cases hq
      intro h; have := congrArg Quat.s h; simp at this
  | mul _ _ h1 h2 => exact h1.mul h2
  | inverse _ h => exact h.transpose
  | inverseMut _ e h =>
    rw [C54_inverse_mut] at e; cases e; exact h.transpose

/-- hence their inverses undo them and they preserve dot products (stated for the three-dimensional ones) -/
theorem C54_rotation3_group {t : Rotation ℝ 3} (h : Spec.Rotation3Value t) (p q : Pt ℝ 3) (v w : Vec ℝ 3) :
    t.inverse * t = Rotation.identity ∧ t * t.inverse = Rotation.identity ∧
    t.inverseApplyPoint (t.applyPoint p) = p ∧ t.inverseApplyVector (t.applyVector v) = v ∧
    (t.applyVector v).dot (t.applyVector w) = v.dot w ∧
    (t.applyPoint p).metricDistance (t.applyPoint q) = p.metricDistance q ∧
    t.applyVector (v.cross w) = (t.applyVector v).cross (t.applyVector w) := by
  have hr := C54_rotation3 h
  obtain ⟨a, b, c, -, d, -⟩ := C54_inverse t p v hr.transpose_mul
  refine ⟨a, b, d, c, C54_dot t v w hr.transpose_mul, (C54_distance t hr.transpose_mul p q v).1, ?_⟩
  obtain ⟨⟨c00, c01, c02⟩, ⟨c10, c11, c12⟩, c20, c21, c22⟩ := hr.cofactors
  show t.matrix * _ = (t.matrix * v).cross (t.matrix * w)
  rw [mulVec3, mulVec3, mulVec3]
  apply Vec.ext3 <;> simp [Vec.cross]
  · rw [← c00, ← c10, ← c20]; ring
  · rw [← c01, ← c11, ← c21]; ring
  · rw [← c02, ← c12, ← c22]; ring

example : Spec.Rotation3Value (Rotation.fromAngleX ⟨Real.pi / 3⟩ * (Rotation.fromAngleZ ⟨1⟩).inverse) :=
  .mul (.fromAngleX _) (.inverse (.fromAngleZ _))

end Cgl

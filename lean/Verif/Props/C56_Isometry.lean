import Verif.Props.C53_Translation
import Verif.Props.C54_Rotation

/-! # C56 - isometries -/

namespace Cgl
open Mat

variable {K : Type*} {n : ℕ}

section Ring
variable [CommRing K] (t u w : Isometry K n) (p : Pt K n) (v v' : Vec K n)

/-- rotate, then translate -/
theorem C56_apply : (t.applyPoint p).coords = t.rotation.matrix * p.coords + t.translation.vector ∧
    t.applyVector v = t.rotation.matrix * v := by
  refine ⟨?_, rfl⟩
  ext i; simp [Isometry.applyPoint, Rotation.applyPoint, Translation.applyPoint, Pt.fromVector, Pt.toVector]

theorem Isometry.mul_parts : (t * u).rotation.matrix = t.rotation.matrix * u.rotation.matrix ∧
    (t * u).translation.vector = t.translation.vector + t.rotation.matrix * u.translation.vector := ⟨rfl, rfl⟩

omit [CommRing K] in
/-- an isometry is determined by its rotation matrix and its translation vector -/
theorem Isometry.ext_parts {t u : Isometry K n} (h : t.rotation.matrix = u.rotation.matrix)
    (h' : t.translation.vector = u.translation.vector) : t = u := by
  ext1
  · ext1; exact h
  · ext1; exact h'

/-- the right factor acts first -/
theorem C56_compose : (t * u).applyPoint p = t.applyPoint (u.applyPoint p) ∧
    (t * u).applyVector v = t.applyVector (u.applyVector v) := by
  refine ⟨?_, mul_mulVec _ _ _⟩
  apply Pt.ext_data; intro i
  rw [(C56_apply (t * u) p v).1, (C56_apply t (u.applyPoint p) v).1, (C56_apply u p v).1, (Isometry.mul_parts t u).1,
    (Isometry.mul_parts t u).2, mul_mulVec, C13_mul_vec_add]
  simp; ring

theorem C56_assoc : (t * u) * w = t * (u * w) := by
  apply Isometry.ext_parts
  · simp only [Isometry.mul_parts]; exact C13_mul_assoc _ _ _
  · simp only [Isometry.mul_parts, mul_mulVec, C13_mul_vec_add]; ext i; simp [add_assoc]

theorem C56_identity : Isometry.identity * t = t ∧ t * Isometry.identity = t ∧
    (Isometry.identity : Isometry K n).applyPoint p = p ∧ (Isometry.identity : Isometry K n).applyVector v = v := by
  have h0 : (Isometry.identity : Isometry K n).rotation.matrix = identity := rfl
  have h1 : (Isometry.identity : Isometry K n).translation.vector = 0 := rfl
  refine ⟨?_, ?_, ?_, identity_mulVec v⟩
  · apply Isometry.ext_parts
    · rw [(Isometry.mul_parts _ _).1, h0]; exact C13_one_mul _
    · rw [(Isometry.mul_parts _ _).2, h0, h1, identity_mulVec]; ext i; simp
  · apply Isometry.ext_parts
    · rw [(Isometry.mul_parts _ _).1, h0]; exact C13_mul_one _
    · rw [(Isometry.mul_parts _ _).2, h1]; ext i; simp [mulVec_data]
  · apply Pt.ext_data; intro i
    rw [(C56_apply _ p v).1, h0, h1, identity_mulVec]; simp

/-- `inverse_mut` never panics and computes `inverse` -/
theorem C56_inverse_mut : t.inverseMut = .ok t.inverse := by
  unfold Isometry.inverseMut
  rw [C54_inverse_mut]
  show Except.ok _ = _
  congr 1
  apply Isometry.ext_parts
  · rfl
  · show t.rotation.inverse.applyVector t.translation.inverseMut.vector = t.rotation.inverse.applyVector (-t.translation.vector)
    rw [C53_inverse_mut]; rfl

/-- the inverse is the isometry with the transposed rotation and translation `-Rᵀ t` -/
theorem C56_inverse_parts : t.inverse.rotation.matrix = t.rotation.matrix.transpose ∧
    t.inverse.translation.vector = t.rotation.matrix.transpose * (-t.translation.vector) := ⟨rfl, rfl⟩

theorem C56_inverse_apply : t.inverseApplyPoint p = t.inverse.applyPoint p ∧
    t.inverseApplyVector v = t.inverse.applyVector v := by
  refine ⟨?_, rfl⟩
  apply Pt.ext_data; intro i
  rw [(C56_apply _ p v).1, (C56_inverse_parts t).1, (C56_inverse_parts t).2]
  show (t.rotation.matrix.transpose * (p.coords - t.translation.vector)).data i = _
  rw [← C13_mul_vec_add]
  congr 2; ext j; simp [sub_eq_add_neg]

section Orthogonal
variable (h : t.rotation.matrix.transpose * t.rotation.matrix = identity)
include h

theorem C56_inverse : t.inverse * t = Isometry.identity ∧ t * t.inverse = Isometry.identity := by
  have h' := mul_comm_of_identity h
  constructor
  · apply Isometry.ext_parts
    · exact h
    · rw [(Isometry.mul_parts _ _).2, (C56_inverse_parts t).1, (C56_inverse_parts t).2, ← C13_mul_vec_add]
      show _ = (0 : Vec K n)
      ext i; simp [mulVec_data]
  · apply Isometry.ext_parts
    · exact h'
    · rw [(Isometry.mul_parts _ _).2, (C56_inverse_parts t).2, ← mul_mulVec, h', identity_mulVec]
      show _ = (0 : Vec K n)
      ext i; simp

theorem C56_inverse_undoes : t.inverseApplyPoint (t.applyPoint p) = p ∧ t.applyPoint (t.inverseApplyPoint p) = p ∧
    t.inverseApplyVector (t.applyVector v) = v ∧ t.applyVector (t.inverseApplyVector v) = v := by
  obtain ⟨a, b⟩ := C56_inverse t h
  refine ⟨?_, ?_, ?_, ?_⟩
  · rw [(C56_inverse_apply t _ v).1, ← (C56_compose _ _ _ v).1, a, (C56_identity t p v).2.2.1]
  · rw [(C56_inverse_apply t _ v).1, ← (C56_compose _ _ _ v).1, b, (C56_identity t p v).2.2.1]
  · rw [(C56_inverse_apply t p _).2, ← (C56_compose _ _ p _).2, a, (C56_identity t p v).2.2.2]
  · rw [(C56_inverse_apply t p _).2, ← (C56_compose _ _ p _).2, b, (C56_identity t p v).2.2.2]

theorem C56_dot : (t.applyVector v).dot (t.applyVector v') = v.dot v' := C54_dot t.rotation v v' h

omit h in
/-- vectors between points are carried by `apply_vector` -/
theorem C56_difference (q : Pt K n) : t.applyPoint p - t.applyPoint q = t.applyVector (p - q) := by
  ext i
  rw [Pt.sub_eq, (C56_apply t p 0).1, (C56_apply t q 0).1]
  simp [Isometry.applyVector, Rotation.applyVector, mulVec_data, mul_sub]
end Orthogonal

/-- the homogeneous matrix acts identically -/
theorem C56_affine_matrix : t.toAffineMatrix * p.toHomogeneous = (t.applyPoint p).toHomogeneous ∧
    t.toAffineMatrix * v.extend 0 = (t.applyVector v).extend 0 := by
  constructor
  · refine (embed_translation_mul t.rotation.matrix t.translation.vector p.coords 1).trans ?_
    rw [Pt.toHomogeneous_eq, (C56_apply t p v).1]; congr 1; ext i; simp
  · refine (embed_translation_mul t.rotation.matrix t.translation.vector v 0).trans ?_
    rw [(C56_apply t p v).2]; congr 1; ext i; simp

theorem C56_affine_mul : (t * u).toAffineMatrix = t.toAffineMatrix * u.toAffineMatrix := by
  apply eq_of_mul_extend
  intro v k
  rw [mul_mulVec]
  refine (embed_translation_mul _ _ v k).trans ?_
  rw [show u.toAffineMatrix * v.extend k = _ from embed_translation_mul _ _ v k]
  refine Eq.trans ?_ (embed_translation_mul _ _ _ k).symm
  rw [(Isometry.mul_parts t u).1, (Isometry.mul_parts t u).2, mul_mulVec, C13_mul_vec_add, C13_mul_vec_scalar]
  congr 1; ext i; simp; ring

/-- multiplying by a bare translation or rotation is multiplying by it as an isometry -/
theorem C56_mixed (r : Rotation K n) (d : Translation K n) :
    r * d = Isometry.fromRotation r * Isometry.fromTranslation d ∧
    d * r = Isometry.fromTranslation d * Isometry.fromRotation r ∧
    t * d = t * Isometry.fromTranslation d ∧ d * t = Isometry.fromTranslation d * t ∧
    t * r = t * Isometry.fromRotation r ∧ r * t = Isometry.fromRotation r * t := by
  refine ⟨?_, ?_, ?_, ?_, ?_, ?_⟩
  · apply Isometry.ext_parts
    · exact (C13_mul_one r.matrix).symm
    · show r.matrix * d.vector = (0 : Vec K n) + r.matrix * d.vector
      ext i; simp
  · apply Isometry.ext_parts
    · exact (C13_one_mul r.matrix).symm
    · show d.vector = d.vector + (identity : Mat K n n) * (0 : Vec K n)
      rw [identity_mulVec]; ext i; simp
  · apply Isometry.ext_parts
    · exact (C13_mul_one t.rotation.matrix).symm
    · rfl
  · apply Isometry.ext_parts
    · exact (C13_one_mul t.rotation.matrix).symm
    · show d.vector + t.translation.vector = d.vector + (identity : Mat K n n) * t.translation.vector
      rw [identity_mulVec]
  · apply Isometry.ext_parts
    · rfl
    · show t.translation.vector = t.translation.vector + t.rotation.matrix * (0 : Vec K n)
      ext i; simp [mulVec_data]
  · apply Isometry.ext_parts
    · rfl
    · show r.matrix * t.translation.vector = (0 : Vec K n) + r.matrix * t.translation.vector
      ext i; simp

/-- the embeddings act as the translation or the rotation does -/
theorem C56_embeddings (r : Rotation K n) (d : Translation K n) :
    (Isometry.fromRotation r).applyPoint p = r.applyPoint p ∧ (Isometry.fromRotation r).applyVector v = r.applyVector v ∧
    (Isometry.fromTranslation d).applyPoint p = d.applyPoint p ∧ (Isometry.fromTranslation d).applyVector v = v := by
  refine ⟨?_, rfl, ?_, identity_mulVec v⟩
  · apply Pt.ext_data; intro i
    rw [(C56_apply _ p v).1]
    show ((r.matrix * p.coords) + (0 : Vec K n)).data i = (r.matrix * p.coords).data i
    simp
  · apply Pt.ext_data; intro i
    rw [(C56_apply _ p v).1, C53_apply_point]
    show ((identity : Mat K n n) * p.coords + d.vector).data i = _
    rw [identity_mulVec]; simp
end Ring

theorem C56_transform [Field K] [DecidableEq K] (t : Isometry K n) :
    Spec.Represents t.toTransform t.applyPoint t.applyVector := by
  have := Transform.represents_of_affine (t := t.toTransform)
    (fun v w => embed_translation_mul t.rotation.matrix t.translation.vector v w)
  refine ⟨fun p => ?_, this.vector⟩
  rw [this.point]; congr 1

/-- distances are preserved -/
theorem C56_distance (t : Isometry ℝ n) (h : t.rotation.matrix.transpose * t.rotation.matrix = identity) (p q : Pt ℝ n) :
    (t.applyPoint p).metricDistance (t.applyPoint q) = p.metricDistance q := by
  rw [C12_distance, C12_distance, C56_difference t p q]
  exact (C54_distance t.rotation h p q (p - q)).2

/-! ### what the constructors build -/

/-- Values of type `Isometry3` that can be obtained through its API, from values of `Rotation3` that can. -/
inductive Spec.Isometry3Value : Isometry ℝ 3 → Prop
  | fromParts {r} (d) (h : Spec.Rotation3Value r) : Isometry3Value (Isometry.fromParts d r)
  | identity : Isometry3Value Isometry.identity
  | fromTranslation (d) : Isometry3Value (Isometry.fromTranslation d)
  | fromRotation {r} (h : Spec.Rotation3Value r) : Isometry3Value (Isometry.fromRotation r)
  | fromAxisAngleTranslation {axis : Unit' (Vec ℝ 3)} (h : axis.value.norm = 1) (a d) :
      Isometry3Value (Isometry.fromAxisAngleTranslation axis a d)
  | fromAxisAngle {axis : Unit' (Vec ℝ 3)} (h : axis.value.norm = 1) (a) : Isometry3Value (Isometry.fromAxisAngle axis a)
  | fromAngleX (a) : Isometry3Value (Isometry.fromAngleX a)
  | fromAngleY (a) : Isometry3Value (Isometry.fromAngleY a)
  | fromAngleZ (a) : Isometry3Value (Isometry.fromAngleZ a)
  | betweenAxis (eps) {a b : Unit' (Vec ℝ 3)} (ha : a.value.norm = 1) (hb : b.value.norm = 1) {t}
      (h : Isometry.rotationBetweenAxis eps a b = some t) : Isometry3Value t
  | between (eps) (a b : Vec ℝ 3) {t} (h : Isometry.rotationBetween eps a b = some t) : Isometry3Value t
  | lookToLh (e) {d up : Vec ℝ 3} (h : up.cross d ≠ 0) : Isometry3Value (Isometry.lookToLh e d up)
  | lookToRh (e) {d up : Vec ℝ 3} (h : up.cross d ≠ 0) : Isometry3Value (Isometry.lookToRh e d up)
  | lookAtLh {e t : Pt ℝ 3} {up : Vec ℝ 3} (h : up.cross (t - e) ≠ 0) : Isometry3Value (Isometry.lookAtLh e t up)
  | lookAtRh {e t : Pt ℝ 3} {up : Vec ℝ 3} (h : up.cross (t - e) ≠ 0) : Isometry3Value (Isometry.lookAtRh e t up)
  | lookToLhInv (e) {d up : Vec ℝ 3} (h : up.cross d ≠ 0) : Isometry3Value (Isometry.lookToLhInv e d up)
  | lookToRhInv (e) {d up : Vec ℝ 3} (h : up.cross d ≠ 0) : Isometry3Value (Isometry.lookToRhInv e d up)
  | lookAtLhInv {e t : Pt ℝ 3} {up : Vec ℝ 3} (h : up.cross (t - e) ≠ 0) : Isometry3Value (Isometry.lookAtLhInv e t up)
  | lookAtRhInv {e t : Pt ℝ 3} {up : Vec ℝ 3} (h : up.cross (t - e) ≠ 0) : Isometry3Value (Isometry.lookAtRhInv e t up)
  | mul {t u} : Isometry3Value t → Isometry3Value u → Isometry3Value (t * u)
  | mulTranslation {t : Isometry ℝ 3} (d : Translation ℝ 3) : Isometry3Value t → Isometry3Value (t * d)
  | translationMul {t : Isometry ℝ 3} (d : Translation ℝ 3) : Isometry3Value t → Isometry3Value (d * t)
  | mulRotation {t : Isometry ℝ 3} {r} : Isometry3Value t → Spec.Rotation3Value r → Isometry3Value (t * r)
  | rotationMul {t : Isometry ℝ 3} {r} : Isometry3Value t → Spec.Rotation3Value r → Isometry3Value (r * t)
  | rotationTranslation {r : Rotation ℝ 3} (d : Translation ℝ 3) : Spec.Rotation3Value r → Isometry3Value (r * d)
  | translationRotation {r : Rotation ℝ 3} (d : Translation ℝ 3) : Spec.Rotation3Value r → Isometry3Value (d * r)
  | inverse {t} : Isometry3Value t → Isometry3Value t.inverse
  | inverseMut {t u} : Isometry3Value t → t.inverseMut = .ok u → Isometry3Value u

/-- the rotation part of every three-dimensional isometry is a proper rotation -/
theorem C56_isometry3 {t : Isometry ℝ 3} (h : Spec.Isometry3Value t) : Spec.IsRotation t.rotation.matrix := by
  induction h with
  | fromParts d h => exact C54_rotation3 h
  | identity => exact Spec.IsRotation.identity
  | fromTranslation d => exact Spec.IsRotation.identity
  | fromRotation h => exact C54_rotation3 h
  | fromAxisAngleTranslation h a d => exact C54_rotation3 (.fromAxisAngle h a)
  | fromAxisAngle h a => exact C54_rotation3 (.fromAxisAngle h a)
  | fromAngleX a => exact C54_rotation3 (.fromAngleX a)
  | fromAngleY a => exact C54_rotation3 (.fromAngleY a)
  | fromAngleZ a => exact C54_rotation3 (.fromAngleZ a)
  | betweenAxis eps ha hb h =>
    obtain ⟨r, hr, rfl⟩ := Option.map_eq_some_iff.mp h
    exact C54_rotation3 (.betweenAxis eps ha hb hr)
  | between eps a b h =>
    unfold Isometry.rotationBetween at h
    split at h
    · rename_i u1 u2 h1 h2
      obtain ⟨r, hr, rfl⟩ := Option.map_eq_some_iff.mp h
      exact C54_rotation3 (.betweenAxis eps (C05_try_from_value_unit _ _ _ h1).1 (C05_try_from_value_unit _ _ _ h2).1 hr)
    · cases h
  | lookToLh e h => exact C54_rotation3 (.lookToLh h)
  | lookToRh e h => exact C54_rotation3 (.lookToRh h)
  | lookAtLh h => exact C54_rotation3 (.lookAtLh h)
  | lookAtRh h => exact C54_rotation3 (.lookAtRh h)
  | lookToLhInv e h => exact C54_rotation3 (.lookToLhInv h)
  | lookToRhInv e h => exact C54_rotation3 (.lookToRhInv h)
  | lookAtLhInv h => exact C54_rotation3 (.lookAtLhInv h)
  | lookAtRhInv h => exact C54_rotation3 (.lookAtRhInv h)
  | mul _ _ h1 h2 => exact h1.mul h2
  | mulTranslation d _ h => exact h
  | translationMul d _ h => exact h
  | mulRotation _ hr h => exact h.mul (C54_rotation3 hr)
  | rotationMul _ hr h => exact (C54_rotation3 hr).mul h
  | rotationTranslation d hr => exact C54_rotation3 hr
  | translationRotation d hr => exact C54_rotation3 hr
  | inverse _ h => exact h.transpose
  | inverseMut _ e h => rw [C56_inverse_mut] at e; cases e; exact h.transpose

/-- Values of type `Isometry2` that can be obtained through its API, from values of `Rotation2` that can. -/
inductive Spec.Isometry2Value : Isometry ℝ 2 → Prop
  | fromParts {r} (d) (h : Spec.Rotation2Value r) : Isometry2Value (Isometry.fromParts d r)
  | identity : Isometry2Value Isometry.identity
  | fromTranslation (d) : Isometry2Value (Isometry.fromTranslation d)
  | fromRotation {r} (h : Spec.Rotation2Value r) : Isometry2Value (Isometry.fromRotation r)
  | fromAngleTranslation (a d) : Isometry2Value (Isometry.fromAngleTranslation2 a d)
  | fromAngle (a) : Isometry2Value (Isometry.fromAngle2 a)
  | betweenAxis (a b) : Isometry2Value (Isometry.rotationBetweenAxis2 a b)
  | between (a b) : Isometry2Value (Isometry.rotationBetween2 a b)
  | mul {t u} : Isometry2Value t → Isometry2Value u → Isometry2Value (t * u)
  | mulTranslation {t : Isometry ℝ 2} (d : Translation ℝ 2) : Isometry2Value t → Isometry2Value (t * d)
  | translationMul {t : Isometry ℝ 2} (d : Translation ℝ 2) : Isometry2Value t → Isometry2Value (d * t)
  | mulRotation {t : Isometry ℝ 2} {r} : Isometry2Value t → Spec.Rotation2Value r → Isometry2Value (t * r)
  | rotationMul {t : Isometry ℝ 2} {r} : Isometry2Value t → Spec.Rotation2Value r → Isometry2Value (r * t)
  | rotationTranslation {r : Rotation ℝ 2} (d : Translation ℝ 2) : Spec.Rotation2Value r → Isometry2Value (r * d)
  | translationRotation {r : Rotation ℝ 2} (d : Translation ℝ 2) : Spec.Rotation2Value r → Isometry2Value (d * r)
  | inverse {t} : Isometry2Value t → Isometry2Value t.inverse
  | inverseMut {t u} : Isometry2Value t → t.inverseMut = .ok u → Isometry2Value u

theorem C56_isometry2 {t : Isometry ℝ 2} (h : Spec.Isometry2Value t) : Spec.IsRotation t.rotation.matrix := by
  induction h with
  | fromParts d h => exact C54_rotation2 h
  | identity => exact Spec.IsRotation.identity
  | fromTranslation d => exact Spec.IsRotation.identity
  | fromRotation h => exact C54_rotation2 h
  | fromAngleTranslation a d => exact C54_rotation2 (.fromAngle a)
  | fromAngle a => exact C54_rotation2 (.fromAngle a)
  | betweenAxis a b => exact C54_rotation2 (.betweenAxis a b)
  | between a b =>
    unfold Isometry.rotationBetween2
    split
    · exact C54_rotation2 (.betweenAxis _ _)
    · exact Spec.IsRotation.identity
  | mul _ _ h1 h2 => exact h1.mul h2
  | mulTranslation d _ h => exact h
  | translationMul d _ h => exact h
  | mulRotation _ hr h => exact h.mul (C54_rotation2 hr)
  | rotationMul _ hr h => exact (C54_rotation2 hr).mul h
  | rotationTranslation d hr => exact C54_rotation2 hr
  | translationRotation d hr => exact C54_rotation2 hr
  | inverse _ h => exact h.transpose
  | inverseMut _ e h => rw [C56_inverse_mut] at e; cases e; exact h.transpose

/-- hence every one of them preserves distances and is undone by its inverse -/
theorem C56_isometry3_group {t : Isometry ℝ 3} (h : Spec.Isometry3Value t) (p q : Pt ℝ 3) (v w : Vec ℝ 3) :
    (t.applyPoint p).metricDistance (t.applyPoint q) = p.metricDistance q ∧
    (t.applyVector v).dot (t.applyVector w) = v.dot w ∧
    t.inverse * t = Isometry.identity ∧ t * t.inverse = Isometry.identity ∧
    t.inverseApplyPoint (t.applyPoint p) = p ∧ t.inverseApplyVector (t.applyVector v) = v := by
  have hr := (C56_isometry3 h).transpose_mul
  obtain ⟨a, b⟩ := C56_inverse t hr
  obtain ⟨c, -, d, -⟩ := C56_inverse_undoes t p v hr
  exact ⟨C56_distance t hr p q, C56_dot t v w hr, a, b, c, d⟩
theorem C56_isometry2_group {t : Isometry ℝ 2} (h : Spec.Isometry2Value t) (p q : Pt ℝ 2) (v w : Vec ℝ 2) :
    (t.applyPoint p).metricDistance (t.applyPoint q) = p.metricDistance q ∧
    (t.applyVector v).dot (t.applyVector w) = v.dot w ∧
    t.inverse * t = Isometry.identity ∧ t * t.inverse = Isometry.identity ∧
    t.inverseApplyPoint (t.applyPoint p) = p ∧ t.inverseApplyVector (t.applyVector v) = v := by
  have hr := (C56_isometry2 h).transpose_mul
  obtain ⟨a, b⟩ := C56_inverse t hr
  obtain ⟨c, -, d, -⟩ := C56_inverse_undoes t p v hr
  exact ⟨C56_distance t hr p q, C56_dot t v w hr, a, b, c, d⟩

/-- the order of the parts: a quarter turn about z composed with a translation, applied to the point (1, 0, 0) -/
example : ((Isometry.fromAxisAngleTranslation (⟨Vec.unitZ3⟩ : Unit' (Vec ℝ 3)) ⟨Real.pi / 2⟩ (Vec.new3 10 0 0)).applyPoint
    (Pt.new3 1 0 0)).coords = Vec.new3 10 1 0 := by
  rw [(C56_apply _ _ 0).1]
  apply Vec.ext3 <;> simp [mulVec_data, Fin.sum_univ_three, Isometry.fromAxisAngleTranslation, Rotation.fromAxisAngle, fromAxisAngle3,
    Translation.fromVector, Vec.unitZ3, Pt.new3]
example : Spec.Isometry3Value ((Isometry.fromAngleX (⟨1⟩ : Radians ℝ)).inverse *
    (Translation.fromVector (Vec.new3 1 2 3) : Translation ℝ 3)) :=
  .mulTranslation _ (.inverse (.fromAngleX _))

end Cgl

import Verif.Props.C56_Isometry

/-! # C57 - similarities -/

namespace Cgl
open Mat

variable {K : Type*} {n : ℕ}

section Ring
variable [CommRing K] (t u w : Similarity K n) (p : Pt K n) (v v' : Vec K n)

/-- scale, then rotate, then translate -/
theorem C57_apply : (t.applyPoint p).coords = (t.rotation.matrix * p.coords) * t.scale + t.translation.vector ∧
    t.applyVector v = (t.rotation.matrix * v) * t.scale := by
  constructor
  · unfold Similarity.applyPoint
    rw [(C56_apply t.isometry _ v).1, Pt.mul_coords, C13_mul_vec_scalar]; rfl
  · unfold Similarity.applyVector
    rw [(C56_apply t.isometry p _).2, C13_mul_vec_scalar]; rfl

theorem Similarity.mul_parts : (t * u).rotation.matrix = t.rotation.matrix * u.rotation.matrix ∧
    (t * u).translation.vector = t.translation.vector + (t.rotation.matrix * u.translation.vector) * t.scale ∧
    (t * u).scale = t.scale * u.scale := ⟨rfl, rfl, rfl⟩

omit [CommRing K] in
theorem Similarity.ext_parts {t u : Similarity K n} (h : t.rotation.matrix = u.rotation.matrix)
    (h' : t.translation.vector = u.translation.vector) (h'' : t.scale = u.scale) : t = u := by
  ext1
  · exact Isometry.ext_parts h h'
  · exact h''

/-- the right factor acts first -/
theorem C57_compose : (t * u).applyPoint p = t.applyPoint (u.applyPoint p) ∧
    (t * u).applyVector v = t.applyVector (u.applyVector v) := by
  obtain ⟨a, b, c⟩ := Similarity.mul_parts t u
  constructor
  · apply Pt.ext_data; intro i
    rw [(C57_apply (t * u) p v).1, (C57_apply t _ v).1, (C57_apply u p v).1, a, b, c, mul_mulVec, C13_mul_vec_add,
      C13_mul_vec_scalar]
    simp; ring
  · rw [(C57_apply (t * u) p v).2, (C57_apply t p _).2, (C57_apply u p v).2, a, c, mul_mulVec, C13_mul_vec_scalar]
    ext i; simp; ring

theorem C57_assoc : (t * u) * w = t * (u * w) := by
  apply Similarity.ext_parts
  · simp only [Similarity.mul_parts]; exact C13_mul_assoc _ _ _
  · simp only [Similarity.mul_parts, mul_mulVec, C13_mul_vec_add, C13_mul_vec_scalar]; ext i; simp; ring
  · simp only [Similarity.mul_parts]; exact mul_assoc _ _ _

theorem C57_identity : Similarity.identity * t = t ∧ t * Similarity.identity = t ∧
    (Similarity.identity : Similarity K n).applyPoint p = p ∧
    (Similarity.identity : Similarity K n).applyVector v = v := by
  have h0 : (Similarity.identity : Similarity K n).rotation.matrix = identity := rfl
  have h1 : (Similarity.identity : Similarity K n).translation.vector = 0 := rfl
  have h2 : (Similarity.identity : Similarity K n).scale = 1 := rfl
  refine ⟨?_, ?_, ?_, ?_⟩
  · apply Similarity.ext_parts
    · rw [(Similarity.mul_parts _ _).1, h0]; exact C13_one_mul _
    · rw [(Similarity.mul_parts _ _).2.1, h0, h1, h2, identity_mulVec]; ext i; simp
    · rw [(Similarity.mul_parts _ _).2.2, h2, one_mul]
  · apply Similarity.ext_parts
    · rw [(Similarity.mul_parts _ _).1, h0]; exact C13_mul_one _
    · rw [(Similarity.mul_parts _ _).2.1, h1]; ext i; simp [mulVec_data]
    · rw [(Similarity.mul_parts _ _).2.2, h2, mul_one]
  · apply Pt.ext_data; intro i
    rw [(C57_apply _ p v).1, h0, h1, h2, identity_mulVec]; simp
  · rw [(C57_apply _ p v).2, h0, h2, identity_mulVec]; ext i; simp

/-- the product with an isometry is the product with it as a similarity of scale one -/
theorem C57_mul_isometry (i : Isometry K n) : t * i = t * Similarity.fromIsometry i := by
  apply Similarity.ext_parts
  · rfl
  · rfl
  · exact (mul_one t.scale).symm

/-- the embeddings of isometries, rotations, translations and scalings act as those do -/
theorem C57_embeddings (i : Isometry K n) (r : Rotation K n) (d : Translation K n) (k : K) :
    (Similarity.fromIsometry i).applyPoint p = i.applyPoint p ∧ (Similarity.fromIsometry i).applyVector v = i.applyVector v ∧
    (Similarity.fromRotation r).applyPoint p = r.applyPoint p ∧ (Similarity.fromRotation r).applyVector v = r.applyVector v ∧
    (Similarity.fromTranslation d).applyPoint p = d.applyPoint p ∧ (Similarity.fromTranslation d).applyVector v = v ∧
    (Similarity.fromScale k).applyPoint p = p * k ∧ (Similarity.fromScale k).applyVector v = v * k := by
  have e : ∀ i : Isometry K n, (⟨i, 1⟩ : Similarity K n).applyPoint p = i.applyPoint p ∧
      (⟨i, 1⟩ : Similarity K n).applyVector v = i.applyVector v := by
    intro i
    have h1 : p * (1 : K) = p := by apply Pt.ext_data; intro i; simp
    have h2 : v * (1 : K) = v := by ext i; simp
    constructor
    · show i.applyPoint (p * (1 : K)) = _; rw [h1]
    · show i.applyVector (v * (1 : K)) = _; rw [h2]
  obtain ⟨a, b, c, f⟩ := C56_embeddings p v r d
  refine ⟨(e i).1, (e i).2, (e _).1.trans a, (e _).2.trans b, (e _).1.trans c, (e _).2.trans f,
    (C56_identity (Isometry.identity : Isometry K n) (p * k) v).2.2.1,
    (C56_identity (Isometry.identity : Isometry K n) p (v * k)).2.2.2⟩

omit [CommRing K] in
/-- the getters return what `from_parts` was given -/
theorem C57_parts (d : Translation K n) (r : Rotation K n) (k : K) :
    (Similarity.fromParts d r k).translation = d ∧ (Similarity.fromParts d r k).rotation = r ∧
    (Similarity.fromParts d r k).scale = k := ⟨rfl, rfl, rfl⟩

theorem Similarity.matrix_mulVec (A : Mat K n n) (k : K) (v : Vec K n) : (A * k) * v = (A * v) * k := by
  ext i; simp only [mulVec_data, Vec.mulS_data, Mat.mulS_data, Finset.sum_mul]
  apply Finset.sum_congr rfl; intros; ring

theorem Similarity.toAffineMatrix_mul (k : K) : t.toAffineMatrix * v.extend k =
    ((t.rotation.matrix * v) * t.scale + t.translation.vector * k).extend k := by
  rw [← matrix_mulVec]
  exact embed_translation_mul (t.rotation.matrix * t.scale) t.translation.vector v k

/-- the homogeneous matrix acts identically -/
theorem C57_affine_matrix : t.toAffineMatrix * p.toHomogeneous = (t.applyPoint p).toHomogeneous ∧
    t.toAffineMatrix * v.extend 0 = (t.applyVector v).extend 0 := by
  constructor
  · rw [Pt.toHomogeneous_eq, Pt.toHomogeneous_eq, Similarity.toAffineMatrix_mul, (C57_apply t p v).1]; congr 1; ext i; simp
  · rw [Similarity.toAffineMatrix_mul, (C57_apply t p v).2]; congr 1; ext i; simp

theorem C57_affine_mul : (t * u).toAffineMatrix = t.toAffineMatrix * u.toAffineMatrix := by
  apply eq_of_mul_extend
  intro v k
  obtain ⟨a, b, c⟩ := Similarity.mul_parts t u
  rw [mul_mulVec, Similarity.toAffineMatrix_mul, Similarity.toAffineMatrix_mul, Similarity.toAffineMatrix_mul, a, b, c,
    mul_mulVec, C13_mul_vec_add, C13_mul_vec_scalar, C13_mul_vec_scalar]
  refine congrArg (fun x => Vec.extend x k) ?_
  ext i; simp; ring
end Ring

section Field
variable [Field K] (t : Similarity K n) (p : Pt K n) (v v' : Vec K n)

theorem C57_transform [DecidableEq K] : Spec.Represents t.toTransform t.applyPoint t.applyVector := by
  have := Transform.represents_of_affine (t := t.toTransform) (A := t.rotation.matrix * t.scale)
    (d := t.translation.vector) (fun v w => by
      rw [Similarity.matrix_mulVec]; exact Similarity.toAffineMatrix_mul t v w)
  refine ⟨fun p => ?_, fun v => ?_⟩
  · rw [this.point]; refine congrArg Except.ok ?_; apply Pt.ext_data; intro i
    rw [(C57_apply t p 0).1, Similarity.matrix_mulVec]
  · rw [this.vector, (C57_apply t Pt.origin v).2]; exact Similarity.matrix_mulVec _ _ _

/-- `inverse` never panics; it is the similarity with scale `1 / s`, rotation `Rᵀ` and translation `-Rᵀ t / s` -/
theorem C57_inverse_parts : ∃ s, t.inverse = .ok s ∧ t.inverseMut = .ok s ∧
    s.scale = 1 / t.scale ∧ s.rotation.matrix = t.rotation.matrix.transpose ∧
    s.translation.vector = (t.rotation.matrix.transpose * (-t.translation.vector)) * (1 / t.scale) := by
  have e : t.inverseMut = .ok ⟨⟨t.isometry.inverse.rotation,
      ⟨t.isometry.inverse.translation.vector.mulAssign (1 / t.scale)⟩⟩, 1 / t.scale⟩ := by
    unfold Similarity.inverseMut
    rw [C56_inverse_mut]; rfl
  refine ⟨_, e, e, rfl, rfl, ?_⟩
  show Vec.mulAssign (t.rotation.matrix.transpose * (-t.translation.vector)) _ = _
  ext i; simp

section Invertible
variable (h : t.rotation.matrix.transpose * t.rotation.matrix = identity) (hs : t.scale ≠ 0)
include h hs

theorem C57_inverse : ∃ s, t.inverse = .ok s ∧ s * t = Similarity.identity ∧ t * s = Similarity.identity := by
  obtain ⟨s, h1, -, a, b, c⟩ := C57_inverse_parts t
  have h' := mul_comm_of_identity h
  refine ⟨s, h1, ?_, ?_⟩
  · obtain ⟨x, y, z⟩ := Similarity.mul_parts s t
    apply Similarity.ext_parts
    · rw [x, b]; exact h
    · rw [y, a, b, c]
      show _ = (0 : Vec K n)
      ext i; simp [mulVec_data]
    · rw [z, a]; show _ = (1 : K); field_simp
  · obtain ⟨x, y, z⟩ := Similarity.mul_parts t s
    apply Similarity.ext_parts
    · rw [x, b]; exact h'
    · rw [y, c, C13_mul_vec_scalar, ← mul_mulVec, h', identity_mulVec]
      show _ = (0 : Vec K n)
      ext i; simp [hs]
    · rw [z, a]; show _ = (1 : K); field_simp

/-- `inverse_apply_*` agree with the inverse and undo the similarity -/
theorem C57_inverse_undoes : t.inverseApplyPoint (t.applyPoint p) = p ∧ t.applyPoint (t.inverseApplyPoint p) = p ∧
    t.inverseApplyVector (t.applyVector v) = v ∧ t.applyVector (t.inverseApplyVector v) = v ∧
    ∃ s, t.inverse = .ok s ∧ t.inverseApplyPoint p = s.applyPoint p ∧ t.inverseApplyVector v = s.applyVector v := by
  have e : ∀ p : Pt K n, p * t.scale / t.scale = p ∧ p / t.scale * t.scale = p := by
    intro p; constructor <;> (apply Pt.ext_data; intro i; simp [hs])
  have e' : ∀ v : Vec K n, v * t.scale / t.scale = v ∧ v / t.scale * t.scale = v := by
    intro p; constructor <;> (ext i; simp [hs])
  refine ⟨?_, ?_, ?_, ?_, ?_⟩
  · show t.isometry.inverseApplyPoint (t.isometry.applyPoint (p * t.scale)) / t.scale = p
    rw [(C56_inverse_undoes t.isometry _ v h).1, (e p).1]
  · show t.isometry.applyPoint (t.isometry.inverseApplyPoint p / t.scale * t.scale) = p
    rw [(e _).2, (C56_inverse_undoes t.isometry _ v h).2.1]
  · show t.isometry.inverseApplyVector (t.isometry.applyVector (v * t.scale)) / t.scale = v
    rw [(C56_inverse_undoes t.isometry p _ h).2.2.1, (e' v).1]
  · show t.isometry.applyVector (t.isometry.inverseApplyVector v / t.scale * t.scale) = v
    rw [(e' _).2, (C56_inverse_undoes t.isometry p _ h).2.2.2]
  · obtain ⟨s, h1, -, a, b, c⟩ := C57_inverse_parts t
    refine ⟨s, h1, ?_, ?_⟩
    · apply Pt.ext_data; intro i
      rw [(C57_apply s p v).1, a, b, c]
      show ((t.isometry.inverseApplyPoint p).coords / t.scale).data i = _
      rw [(C56_inverse_apply t.isometry p v).1, (C56_apply _ p v).1, (C56_inverse_parts _).1, (C56_inverse_parts _).2]
      simp [Similarity.translation, Similarity.rotation]; ring
    · rw [(C57_apply s p v).2, a, b]
      show (t.isometry.inverse.applyVector v) / t.scale = _
      rw [(C56_apply _ p v).2, (C56_inverse_parts _).1]
      ext i; simp [Similarity.rotation, div_eq_mul_inv]
end Invertible
end Field

/-- distances are multiplied by the absolute value of the scale, dot products by its square -/
theorem C57_distance (t : Similarity ℝ n) (h : t.rotation.matrix.transpose * t.rotation.matrix = identity)
    (p q : Pt ℝ n) (v w : Vec ℝ n) :
    (t.applyPoint p).metricDistance (t.applyPoint q) = |t.scale| * p.metricDistance q ∧
    (t.applyVector v).norm = |t.scale| * v.norm ∧
    (t.applyVector v).dot (t.applyVector w) = t.scale ^ 2 * v.dot w := by
  refine ⟨?_, ?_, ?_⟩
  · show (t.isometry.applyPoint (p * t.scale)).metricDistance (t.isometry.applyPoint (q * t.scale)) = _
    rw [C56_distance t.isometry h, C12_distance, C12_distance,
      show p * t.scale - q * t.scale = (p - q) * t.scale by ext i; simp [sub_mul], Vec.norm_mulS, mul_comm]
  · show (t.rotation.applyVector (v * t.scale)).norm = _
    rw [(C54_distance t.rotation h p q _).2, Vec.norm_mulS, mul_comm]
  · show (t.isometry.applyVector (v * t.scale)).dot (t.isometry.applyVector (w * t.scale)) = _
    rw [C56_dot t.isometry _ _ h]
    simp only [Vec.dot_eq_sum, Vec.mulS_data, Finset.mul_sum]
    apply Finset.sum_congr rfl; intros; ring

/-- Values of type `Similarity3` with a non-zero scale that can be obtained through its API. -/
inductive Spec.Similarity3Value : Similarity ℝ 3 → Prop
  | fromParts {r} (d) (h : Spec.Rotation3Value r) {k} (hk : k ≠ 0) : Similarity3Value (Similarity.fromParts d r k)
  | identity : Similarity3Value Similarity.identity
  | fromTranslation (d) : Similarity3Value (Similarity.fromTranslation d)
  | fromRotation {r} (h : Spec.Rotation3Value r) : Similarity3Value (Similarity.fromRotation r)
  | fromScale {k} (hk : k ≠ 0) : Similarity3Value (Similarity.fromScale k)
  | fromIsometry {i} (h : Spec.Isometry3Value i) : Similarity3Value (Similarity.fromIsometry i)
  | fromAxisAngle {axis : Unit' (Vec ℝ 3)} (h : axis.value.norm = 1) (a) : Similarity3Value (Similarity.fromAxisAngle axis a)
  | lookToLh (e) {d up : Vec ℝ 3} (h : up.cross d ≠ 0) : Similarity3Value (Similarity.lookToLh e d up)
  | lookToRh (e) {d up : Vec ℝ 3} (h : up.cross d ≠ 0) : Similarity3Value (Similarity.lookToRh e d up)
  | lookAtLh {e t : Pt ℝ 3} {up : Vec ℝ 3} (h : up.cross (t - e) ≠ 0) : Similarity3Value (Similarity.lookAtLh e t up)
  | lookAtRh {e t : Pt ℝ 3} {up : Vec ℝ 3} (h : up.cross (t - e) ≠ 0) : Similarity3Value (Similarity.lookAtRh e t up)
  | lookToLhInv (e) {d up : Vec ℝ 3} (h : up.cross d ≠ 0) : Similarity3Value (Similarity.lookToLhInv e d up)
  | lookToRhInv (e) {d up : Vec ℝ 3} (h : up.cross d ≠ 0) : Similarity3Value (Similarity.lookToRhInv e d up)
  | lookAtLhInv {e t : Pt ℝ 3} {up : Vec ℝ 3} (h : up.cross (t - e) ≠ 0) : Similarity3Value (Similarity.lookAtLhInv e t up)
  | lookAtRhInv {e t : Pt ℝ 3} {up : Vec ℝ 3} (h : up.cross (t - e) ≠ 0) : Similarity3Value (Similarity.lookAtRhInv e t up)
  | mul {t u} : Similarity3Value t → Similarity3Value u → Similarity3Value (t * u)
  | mulIsometry {t : Similarity ℝ 3} {i} : Similarity3Value t → Spec.Isometry3Value i → Similarity3Value (t * i)
  | inverse {t u} : Similarity3Value t → t.inverse = .ok u → Similarity3Value u

theorem C57_similarity3 {t : Similarity ℝ 3} (h : Spec.Similarity3Value t) :
    Spec.IsRotation t.rotation.matrix ∧ t.scale ≠ 0 := by
  induction h with
  | fromParts d h hk => exact ⟨C54_rotation3 h, hk⟩
  | identity => exact ⟨Spec.IsRotation.identity, one_ne_zero⟩
  | fromTranslation d => exact ⟨Spec.IsRotation.identity, one_ne_zero⟩
  | fromRotation h => exact ⟨C54_rotation3 h, one_ne_zero⟩
  | fromScale hk => exact ⟨Spec.IsRotation.identity, hk⟩
  | fromIsometry h => exact ⟨C56_isometry3 h, one_ne_zero⟩
  | fromAxisAngle h a => exact ⟨C54_rotation3 (.fromAxisAngle h a), one_ne_zero⟩
  | lookToLh e h => exact ⟨C54_rotation3 (.lookToLh h), one_ne_zero⟩
  | lookToRh e h => exact ⟨C54_rotation3 (.lookToRh h), one_ne_zero⟩
  | lookAtLh h => exact ⟨C54_rotation3 (.lookAtLh h), one_ne_zero⟩
  | lookAtRh h => exact ⟨C54_rotation3 (.lookAtRh h), one_ne_zero⟩
  | lookToLhInv e h => exact ⟨C54_rotation3 (.lookToLhInv h), one_ne_zero⟩
  | lookToRhInv e h => exact ⟨C54_rotation3 (.lookToRhInv h), one_ne_zero⟩
  | lookAtLhInv h => exact ⟨C54_rotation3 (.lookAtLhInv h), one_ne_zero⟩
  | lookAtRhInv h => exact ⟨C54_rotation3 (.lookAtRhInv h), one_ne_zero⟩
  | mul _ _ h1 h2 => exact ⟨h1.1.mul h2.1, mul_ne_zero h1.2 h2.2⟩
  | mulIsometry _ hi h => exact ⟨h.1.mul (C56_isometry3 hi), h.2⟩
  | @inverse t u _ e h =>
    obtain ⟨s, h1, -, a, b, -⟩ := C57_inverse_parts t
    rw [h1] at e; cases e
    exact ⟨b ▸ h.1.transpose, a ▸ one_div_ne_zero h.2⟩

theorem C57_similarity3_group {t : Similarity ℝ 3} (h : Spec.Similarity3Value t) (p q : Pt ℝ 3) (v : Vec ℝ 3) :
    (t.applyPoint p).metricDistance (t.applyPoint q) = |t.scale| * p.metricDistance q ∧
    (∃ s, t.inverse = .ok s ∧ s * t = Similarity.identity ∧ t * s = Similarity.identity) ∧
    t.inverseApplyPoint (t.applyPoint p) = p ∧ t.inverseApplyVector (t.applyVector v) = v := by
  obtain ⟨hr, hs⟩ := C57_similarity3 h
  obtain ⟨a, -, b, -⟩ := C57_inverse_undoes t p v hr.transpose_mul hs
  exact ⟨(C57_distance t hr.transpose_mul p q v v).1, C57_inverse t hr.transpose_mul hs, a, b⟩

/-- the same in the plane -/
inductive Spec.Similarity2Value : Similarity ℝ 2 → Prop
  | fromParts {r} (d) (h : Spec.Rotation2Value r) {k} (hk : k ≠ 0) : Similarity2Value (Similarity.fromParts d r k)
  | identity : Similarity2Value Similarity.identity
  | fromTranslation (d) : Similarity2Value (Similarity.fromTranslation d)
  | fromRotation {r} (h : Spec.Rotation2Value r) : Similarity2Value (Similarity.fromRotation r)
  | fromScale {k} (hk : k ≠ 0) : Similarity2Value (Similarity.fromScale k)
  | fromIsometry {i} (h : Spec.Isometry2Value i) : Similarity2Value (Similarity.fromIsometry i)
  | fromAngle (a) : Similarity2Value (Similarity.fromAngle2 a)
  | mul {t u} : Similarity2Value t → Similarity2Value u → Similarity2Value (t * u)
  | mulIsometry {t : Similarity ℝ 2} {i} : Similarity2Value t → Spec.Isometry2Value i → Similarity2Value (t * i)
  | inverse {t u} : Similarity2Value t → t.inverse = .ok u → Similarity2Value u

theorem C57_similarity2 {t : Similarity ℝ 2} (h : Spec.Similarity2Value t) :
    Spec.IsRotation t.rotation.matrix ∧ t.scale ≠ 0 := by
  induction h with
  | fromParts d h hk => exact ⟨C54_rotation2 h, hk⟩
  | identity => exact ⟨Spec.IsRotation.identity, one_ne_zero⟩
  | fromTranslation d => exact ⟨Spec.IsRotation.identity, one_ne_zero⟩
  | fromRotation h => exact ⟨C54_rotation2 h, one_ne_zero⟩
  | fromScale hk => exact ⟨Spec.IsRotation.identity, hk⟩
  | fromIsometry h => exact ⟨C56_isometry2 h, one_ne_zero⟩
  | fromAngle a => exact ⟨C54_rotation2 (.fromAngle a), one_ne_zero⟩
  | mul _ _ h1 h2 => exact ⟨h1.1.mul h2.1, mul_ne_zero h1.2 h2.2⟩
  | mulIsometry _ hi h => exact ⟨h.1.mul (C56_isometry2 hi), h.2⟩
  | @inverse t u _ e h =>
    obtain ⟨s, h1, -, a, b, -⟩ := C57_inverse_parts t
    rw [h1] at e; cases e
    exact ⟨b ▸ h.1.transpose, a ▸ one_div_ne_zero h.2⟩

/-- scale, then quarter turn, then translate: the point (1, 0) goes to (10, 3) -/
example : ((Similarity.fromParts (Translation.fromVector (Vec.new2 10 0)) (Rotation.fromAngle2 (⟨Real.pi / 2⟩ : Radians ℝ)) 3).applyPoint
    (Pt.new2 1 0)).coords = Vec.new2 10 3 := by
  rw [(C57_apply _ _ 0).1]
  apply Vec.ext2 <;> simp [mulVec_data, Fin.sum_univ_two, Similarity.fromParts, Similarity.rotation, Similarity.translation,
    Isometry.fromParts, Rotation.fromAngle2, Mat.fromAngle2, Translation.fromVector, Pt.new2]
example : Spec.Similarity3Value (Similarity.fromScale 3 * Similarity.fromIsometry (Isometry.fromAngleX ⟨1⟩)) :=
  .mul (.fromScale (by norm_num)) (.fromIsometry (.fromAngleX _))

end Cgl

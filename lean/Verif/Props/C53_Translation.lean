import Verif.Lemmas.Transform
import Verif.Props.C12_Points
import Verif.Props.C23_Affine

/-! # C53 - translations, in every dimension -/

namespace Cgl
open Mat

variable {S : Type*} {n : ℕ}

section Group
variable [CommRing S] (t u w : Translation S n) (p q : Pt S n) (v : Vec S n)

theorem C53_apply_point (i : Fin n) : (t.applyPoint p).coords.data i = p.coords.data i + t.vector.data i := by
  simp [Translation.applyPoint]

omit [CommRing S] in
/-- vectors are not moved -/
theorem C53_apply_vector : t.applyVector v = v ∧ t.inverseApplyVector v = v := ⟨rfl, rfl⟩

theorem C53_compose : (t * u).applyPoint p = t.applyPoint (u.applyPoint p) ∧
    (t * u).toVector = t.toVector + u.toVector := by
  refine ⟨?_, rfl⟩
  apply Pt.ext_data; intro i
  rw [C53_apply_point, show (t * u).vector = t.vector + u.vector from rfl]
  simp [Translation.applyPoint]; ring

theorem C53_comm : t * u = u * t := by
  ext i
  show (t.vector + u.vector).data i = (u.vector + t.vector).data i
  simp [add_comm]
theorem C53_assoc : (t * u) * w = t * (u * w) := by
  ext i
  show ((t.vector + u.vector) + w.vector).data i = (t.vector + (u.vector + w.vector)).data i
  simp [add_assoc]
theorem C53_identity : Translation.identity * t = t ∧ (Translation.identity : Translation S n).applyPoint p = p := by
  constructor
  · ext i; show ((0 : Vec S n) + t.vector).data i = _; simp
  · apply Pt.ext_data; intro i; simp [Translation.applyPoint, Translation.identity]
theorem C53_inverse : t * t.inverse = Translation.identity ∧ t.inverse * t = Translation.identity := by
  constructor
  · ext i; show (t.vector + -t.vector).data i = (0 : Vec S n).data i; simp
  · ext i; show (-t.vector + t.vector).data i = (0 : Vec S n).data i; simp
theorem C53_inverse_undoes : t.inverse.applyPoint (t.applyPoint p) = p ∧ t.applyPoint (t.inverse.applyPoint p) = p ∧
    t.inverseApplyPoint (t.applyPoint p) = p ∧ t.inverseApplyPoint p = t.inverse.applyPoint p := by
  refine ⟨?_, ?_, ?_, ?_⟩ <;> apply Pt.ext_data <;> intro i <;>
    simp [Translation.applyPoint, Translation.inverse, Translation.fromVector, Translation.inverseApplyPoint,
      sub_eq_add_neg]
/-- the in-place version is the same function -/
theorem C53_inverse_mut : t.inverseMut = t.inverse := by
  ext i; simp [Translation.inverseMut, Translation.inverse, Translation.fromVector]
theorem C53_inverse_inverse : t.inverse.inverse = t := by
  ext i; simp [Translation.inverse, Translation.fromVector]

/-- `between_points` is the unique translation taking `p` to `q` -/
theorem C53_between_points : t.applyPoint p = q ↔ t = Translation.betweenPoints p q := by
  constructor
  · rintro rfl; ext i; simp [Translation.betweenPoints, Translation.fromVector, Translation.applyPoint]
  · rintro rfl
    apply Pt.ext_data; intro i; simp [Translation.betweenPoints, Translation.fromVector, Translation.applyPoint]
theorem C53_between_vectors (a b : Vec S n) :
    Translation.betweenVectors a b = Translation.betweenPoints (Pt.fromVector a) (Pt.fromVector b) := rfl

/-- the homogeneous matrices -/
theorem C53_affine_matrix : t.toAffineMatrix = fromAffineTranslation t.vector ∧
    t.toAffineMatrix * p.toHomogeneous = (t.applyPoint p).toHomogeneous ∧
    t.toAffineMatrix * v.extend 0 = (t.applyVector v).extend 0 :=
  ⟨rfl, C23_translation_point t.vector p, C23_translation_vector t.vector v⟩
theorem C53_affine_mul : (t * u).toAffineMatrix = t.toAffineMatrix * u.toAffineMatrix :=
  (C23_translation_compose t.vector u.vector).symm
theorem C53_affine_injective (h : t.toAffineMatrix = u.toAffineMatrix) : t = u := by
  ext i
  have := congrArg (fun m => m.data (Fin.last n) i.castSucc) h
  simp only [(C53_affine_matrix t Pt.origin 0).1, (C53_affine_matrix u Pt.origin 0).1,
    fromAffineTranslation_last] at this
  exact this
end Group

theorem C53_transform [Field S] [DecidableEq S] (t : Translation S n) :
    Spec.Represents t.toTransform t.applyPoint t.applyVector := by
  have h : ∀ (v : Vec S n) (w : S), t.toTransform.matrix * v.extend w =
      ((identity : Mat S n n) * v + t.vector * w).extend w := by
    intro v w
    rw [identity_mulVec]; exact fromAffineTranslation_mul t.vector v w
  have := Transform.represents_of_affine h
  refine ⟨fun p => ?_, fun v => ?_⟩
  · rw [this.point, identity_mulVec]; rfl
  · rw [this.vector, identity_mulVec]; rfl

/-- distances are preserved -/
theorem C53_isometry (t : Translation ℝ n) (p q : Pt ℝ n) :
    (t.applyPoint p).metricDistance (t.applyPoint q) = p.metricDistance q := C12_distance_translation p q t.vector

/-- the constructors of two- and three-dimensional translations -/
theorem C53_new [Zero S] (x y z : S) : (Translation.new2 x y).vector = Vec.new2 x y ∧
    (Translation.new3 x y z).vector = Vec.new3 x y z := ⟨rfl, rfl⟩

example : (Translation.new2 1 2 : Translation ℚ 2).toTransform.applyPoint (Pt.new2 3 4) = .ok (Pt.new2 4 6) := by
  rw [(C53_transform _).point]; congr 1
  apply Pt.ext_data; intro i; fin_cases i <;> simp [Translation.applyPoint, Translation.new2, Pt.new2] <;> norm_num

end Cgl
